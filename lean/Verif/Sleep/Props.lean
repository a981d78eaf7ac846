import Verif.Sleep.Model
import Verif.Time.Props
import Verif.Timer.Props
/-!
# C73: sleeps and alarms are exact
-/
namespace Shadow.Sleep

open Shadow.Base
open Shadow.Time

/-! ## What the calls should do -/

/-- A time of a program: seconds and nanoseconds, normalised and not longer than the clock of the simulation (about 554 years). -/
def Good (q : Int × Int) : Prop :=
  0 ≤ q.1 ∧ 0 ≤ q.2 ∧ q.2 < 1000000000 ∧ q.1 * 1000000000 + q.2 ≤ 17500059273709551614

instance (q) : Decidable (Good q) := by unfold Good; infer_instance

/-- Its nanoseconds. -/
def ns (q : Int × Int) : Int := q.1 * 1000000000 + q.2

def Call.req : Call → Int × Int
  | .nano q _ => q
  | .clock _ _ q _ => q

def Call.rem : Call → Bool
  | .nano _ r => r
  | .clock _ _ _ r => r

/-- Does the call name a point in time? -/
def Call.abs : Call → Bool
  | .nano _ _ => false
  | .clock _ f _ _ => f.getLsbD 0

/-- Which calls are refused, and how: clocks that measure processor time or cannot be slept on, unknown clocks, bad times, and for the two alarm clocks
unknown flags. -/
def Call.refused : Call → Option Nat
  | .nano q _ => if Good q then none else some 22
  | .clock id f q _ =>
    if id = 2 ∨ id = 4 ∨ id = 5 ∨ id = 6 then some 95
    else if id = 0 ∨ id = 1 ∨ id = 7 ∨ id = 11 then (if Good q then none else some 22)
    else if id = 8 ∨ id = 9 then (if Good q ∧ (f = 0 ∨ f = 1) then none else some 22)
    else some 22

/-- When a call made at `t` is to return. -/
def Call.target (c : Call) (t : Nat) : Int := if c.abs then ns c.req else t + ns c.req

/-- The step `a` ends a call with `r`. -/
def Ends (s : St) (a : Act) (s' : St) (r : Ret) : Prop := step s a = some (.ok s') ∧ s'.log = s.log ++ [r]

/-! ## The handler in closed form -/

theorem good_some {q : Int × Int} (h : Good q) : Sim.tryFromTimespec q.1 q.2 = some (ns q).toNat := by
  rw [tryFromTimespec_exact]
  unfold Good at h; unfold ns
  omega

theorem not_good {q : Int × Int} (h : ¬ Good q) : Sim.tryFromTimespec q.1 q.2 = none := by
  cases e : Sim.tryFromTimespec q.1 q.2 with
  | none => rfl
  | some a =>
    rw [tryFromTimespec_exact] at e
    exact absurd (by unfold Good; omega) h

theorem ns_nonneg {q} (h : Good q) : 0 ≤ ns q := by unfold Good at h; unfold ns; omega

/-- The handler for a call that is accepted. -/
def body (now : Nat) (cond : Option Nat) (c : Call) : R Out :=
  if c.target now ≤ 18446744073709551614 then
    if c.target now ≤ now then .ok (.ret 0 none)
    else match cond with
      | none => .ok (.block (c.target now).toNat)
      | some e =>
        if e ≤ now then .ok (.ret 0 none)
        else if c.rem && !c.abs then
          (if e - now ≤ 17500059273709551614 then .ok (.ret 4 (some (((e - now) / 1000000000 : Nat), ((e - now) % 1000000000 : Nat)))) else .panic)
        else .ok (.ret 4 none)
  else .panic

theorem helper_good {now cond f q rem unspec abs} (hg : Good q) (hf : flagsOf f unspec = some abs) :
    helper now cond f q rem unspec =
      (let t : Int := if abs then ns q else now + ns q
       if t ≤ 18446744073709551614 then
        if t ≤ now then .ok (.ret 0 none)
        else match cond with
          | none => .ok (.block t.toNat)
          | some e =>
            if e ≤ now then .ok (.ret 0 none)
            else if rem && !abs then
              (if e - now ≤ 17500059273709551614 then .ok (.ret 4 (some (((e - now) / 1000000000 : Nat), ((e - now) % 1000000000 : Nat)))) else .panic)
            else .ok (.ret 4 none)
       else .panic) := by
  have h0 := ns_nonneg hg
  unfold helper
  rw [good_some hg]
  simp only [hf, emu_checkedAdd_exact]
  generalize ns q = n at h0
  obtain ⟨d, rfl⟩ := Int.eq_ofNat_of_zero_le h0
  have e1 : (((if abs = true then 0 else now) + (d : Int).toNat : Nat) : Int) = if abs = true then (d : Int) else now + d := by
    cases abs <;> simp
  generalize ht : (if abs = true then (d : Int) else now + d) = t at e1 ⊢
  generalize hn : (if abs = true then 0 else now) + (d : Int).toNat = k at e1 ⊢
  subst e1
  by_cases hk : k ≤ 18446744073709551614
  · rw [if_pos hk, if_pos (by omega)]
    simp only [R.unwrap_some, R.bind_ok]
    by_cases hle : k ≤ now
    · rw [if_pos hle, if_pos (by omega)]
    · rw [if_neg hle, if_neg (by omega)]
      cases cond with
      | none => simp
      | some e =>
        simp only
        by_cases he : e ≤ now
        · rw [if_pos he, if_pos he]
        · rw [if_neg he, if_neg he]
          split
          · unfold Emu.durationSince
            rw [emu_checkedDurationSince_exact]
            by_cases hb : e - now ≤ 17500059273709551614
            · rw [if_pos ⟨by omega, hb⟩, if_pos hb]
              simp only [R.unwrap_some, R.bind_ok]
              unfold Sim.toTimespec
              rw [if_pos (by omega)]
              rfl
            · rw [if_neg (fun h => hb h.2), if_neg hb]; rfl
          · rfl
  · rw [if_neg hk, if_neg (by omega)]; rfl

theorem handle_eq (now : Nat) (cond : Option Nat) (c : Call) :
    handle now cond c = match c.refused with
      | some e => .ok (.ret e none)
      | none => body now cond c := by
  have hbad : ∀ f q rem un, ¬ Good q → helper now cond f q rem un = .ok (.ret 22 none) := by
    intro f q rem un h
    unfold helper
    rw [not_good h]; rfl
  cases c with
  | nano q rem =>
    simp only [handle, Call.refused]
    by_cases hg : Good q
    · rw [if_pos hg, helper_good (abs := false) hg (by rfl)]
      rfl
    · rw [if_neg hg, hbad _ _ _ _ hg]
  | clock id f q rem =>
    simp only [handle, Call.refused]
    by_cases h1 : id = 2 ∨ id = 4 ∨ id = 5 ∨ id = 6
    · rw [if_pos h1]
      rcases h1 with h | h | h | h <;> subst h <;> rfl
    · rw [if_neg h1]
      by_cases h2 : id = 0 ∨ id = 1 ∨ id = 7 ∨ id = 11
      · rw [if_pos h2, if_pos (by simp; omega)]
        have hun : (!(decide (id ∈ [8, 9]))) = true := by
          simp; omega
        rw [hun]
        by_cases hg : Good q
        · rw [if_pos hg, helper_good (abs := f.getLsbD 0) hg (by rfl)]
          rfl
        · rw [if_neg hg, hbad _ _ _ _ hg]
      · rw [if_neg h2]
        by_cases h3 : id = 8 ∨ id = 9
        · rw [if_pos h3, if_pos (by simp; omega)]
          have hun : (!(decide (id ∈ [8, 9]))) = false := by
            simp; omega
          rw [hun]
          by_cases hg : Good q
          · by_cases hf : f = 0 ∨ f = 1
            · rw [if_pos ⟨hg, hf⟩]
              have : flagsOf f false = some (f.getLsbD 0) := by
                rcases hf with h | h <;> subst h <;> decide
              rw [helper_good hg this]
              rfl
            · rw [if_neg (fun h => hf h.2)]
              unfold helper
              rw [good_some hg]
              have : flagsOf f false = none := by
                unfold flagsOf
                rw [if_neg (by simp), if_neg (fun h => hf (.inl h)), if_neg (fun h => hf (.inr h))]
              simp only [this]
              rfl
          · rw [if_neg (fun h => hg h.1), hbad _ _ _ _ hg]
        · rw [if_neg h3, if_neg (by simp; omega)]
          split
          · rfl
          · rw [if_neg (by simp; omega), if_neg (by omega)]; rfl

theorem good_of {c : Call} (h : c.refused = none) : Good c.req := by
  unfold Call.refused at h
  cases c with
  | nano q r =>
    simp only at h
    by_cases hg : Good q
    · exact hg
    · rw [if_neg hg] at h; cases h
  | clock id f q r =>
    simp only at h
    show Good q
    by_cases hg : Good q
    · exact hg
    · simp only [hg, if_false, false_and] at h
      split at h
      · cases h
      · split at h
        · cases h
        · split at h <;> cases h

/-! ## The invariant -/

structure WInv (s : St) (w : Wait) : Prop where
  ok : w.call.refused = none
  target : (w.deadline : Int) = w.call.target w.start
  start : w.start ≤ s.now ∧ w.start < w.deadline ∧ simStart ≤ w.start
  due : s.now ≤ w.deadline
  max : w.deadline ≤ emuMax
  sig : s.sig = true → w.sched = true

structure Inv (s : St) : Prop where
  now : simStart ≤ s.now ∧ s.now ≤ emuMax
  wait : ∀ w, s.wait = some w → WInv s w

/-- What a call does that is made now. -/
theorem run_new {s s' : St} {c : Call} (h : s.run c none s.now = .ok s') :
    (∃ e, c.refused = some e ∧ s' = { s with wait := none, log := s.log ++ [⟨c, s.now, s.now, e, none⟩] }) ∨
    (c.refused = none ∧ c.target s.now ≤ 18446744073709551614 ∧
      ((c.target s.now ≤ s.now ∧ s' = { s with wait := none, log := s.log ++ [⟨c, s.now, s.now, 0, none⟩] }) ∨
       (s.now < c.target s.now ∧ s.sig = true ∧ s' = { s with wait := none, log := s.log ++ [⟨c, s.now, s.now, 4, none⟩] }) ∨
       (s.now < c.target s.now ∧ s.sig = false ∧ s' = { s with wait := some { call := c, deadline := (c.target s.now).toNat, start := s.now } }))) := by
  unfold St.run at h
  rw [handle_eq] at h
  cases hr : c.refused with
  | some e =>
    rw [hr] at h
    simp only [R.bind_ok, R.ok.injEq] at h
    exact .inl ⟨e, rfl, h.symm⟩
  | none =>
    rw [hr] at h
    right
    simp only [body] at h
    split at h
    · rename_i h1
      refine ⟨rfl, h1, ?_⟩
      split at h
      · rename_i h2
        simp only [R.bind_ok, R.ok.injEq] at h
        exact .inl ⟨h2, h.symm⟩
      · rename_i h2
        simp only [R.bind_ok] at h
        split at h
        · rename_i hs
          simp only [R.ok.injEq] at h
          exact .inr (.inl ⟨by omega, hs, h.symm⟩)
        · rename_i hs
          rw [show decide (s.now ≤ (c.target s.now).toNat) = true by simp; omega] at h
          simp only [R.assert_true, R.bind_ok, R.ok.injEq] at h
          exact .inr (.inr ⟨by omega, by simpa using hs, h.symm⟩)
    · cases h

/-- What a sleep does when it is woken: it never sleeps again. -/
theorem run_again {s s' : St} {w : Wait} (wi : WInv s w) (h : s.run w.call (some w.deadline) w.start = .ok s') :
    (w.deadline ≤ s.now ∧ s' = { s with wait := none, log := s.log ++ [⟨w.call, w.start, s.now, 0, none⟩] }) ∨
    (s.now < w.deadline ∧ ∃ rem, s' = { s with wait := none, log := s.log ++ [⟨w.call, w.start, s.now, 4, rem⟩] } ∧
      rem = if w.call.rem && !w.call.abs then
        some ((((w.deadline - s.now) / 1000000000 : Nat), ((w.deadline - s.now) % 1000000000 : Nat)) : Int × Int) else none) := by
  have hst := wi.start
  have ht := wi.target
  unfold St.run at h
  rw [handle_eq, wi.ok] at h
  simp only [body] at h
  split at h
  · split at h
    · rename_i h2
      simp only [R.bind_ok, R.ok.injEq] at h
      left
      refine ⟨?_, h.symm⟩
      unfold Call.target at h2 ht
      cases ha : w.call.abs <;> rw [ha] at h2 ht
      · simp only [Bool.false_eq_true, if_false] at h2 ht
        omega
      · simp only [if_true] at h2 ht
        omega
    · split at h
      · rename_i h3
        simp only [R.bind_ok, R.ok.injEq] at h
        exact .inl ⟨h3, h.symm⟩
      · rename_i h3
        right
        refine ⟨by omega, ?_⟩
        split at h
        · rename_i hb
          split at h
          · simp only [R.bind_ok, R.ok.injEq] at h
            refine ⟨_, h.symm, by rw [if_pos hb]⟩
          · cases h
        · rename_i hb
          simp only [R.bind_ok, R.ok.injEq] at h
          exact ⟨_, h.symm, by rw [if_neg hb]⟩
  · cases h

theorem WInv.of_new {s : St} {c : Call} (hn : simStart ≤ s.now) (hr : c.refused = none) (hm : c.target s.now ≤ 18446744073709551614)
    (hlt : (s.now : Int) < c.target s.now) (hs : s.sig = false) :
    WInv { s with wait := some { call := c, deadline := (c.target s.now).toNat, start := s.now } }
      { call := c, deadline := (c.target s.now).toNat, start := s.now } where
  ok := hr
  target := by simp only; omega
  start := ⟨Nat.le_refl _, by simp only; omega, hn⟩
  due := by simp only; omega
  max := by rw [emuMax_eq]; simp only; omega
  sig h := by rw [hs] at h; cases h

theorem Run.inv {s : St} (h : Run s) : Inv s := by
  induction h with
  | init h1 h2 => exact ⟨⟨h1, h2⟩, fun w hw => by cases hw⟩
  | @step s s' a _ ha hs ih =>
    cases a with
    | call c =>
      simp only [Shadow.Sleep.step] at hs
      split at hs
      · simp only [Option.some.injEq] at hs
        rcases run_new hs with ⟨e, _, rfl⟩ | ⟨hr, hm, ⟨_, rfl⟩ | ⟨_, _, rfl⟩ | ⟨hlt, hsg, rfl⟩⟩
        · exact ⟨ih.now, fun w hw => by cases hw⟩
        · exact ⟨ih.now, fun w hw => by cases hw⟩
        · exact ⟨ih.now, fun w hw => by cases hw⟩
        · exact ⟨ih.now, fun w hw => by cases hw; exact WInv.of_new ih.now.1 hr hm hlt hsg⟩
      · cases hs
    | wake =>
      simp only [Shadow.Sleep.step] at hs
      split at hs
      · rename_i w hw
        split at hs
        · simp only [Option.some.injEq] at hs
          have wi := ih.wait w hw
          split at hs
          · rcases run_again wi hs with ⟨_, rfl⟩ | ⟨_, _, rfl, _⟩
            · exact ⟨ih.now, fun w hw => by cases hw⟩
            · exact ⟨ih.now, fun w hw => by cases hw⟩
          · rename_i hno
            simp only [R.ok.injEq] at hs
            subst hs
            refine ⟨ih.now, fun v hv => ?_⟩
            cases hv
            exact { wi with sig := fun h => absurd (by simp [show s.sig = true from h]) hno }
        · cases hs
      · cases hs
    | signal =>
      simp only [Shadow.Sleep.step, Option.some.injEq, R.ok.injEq] at hs
      subst hs
      refine ⟨ih.now, fun v hv => ?_⟩
      simp only [Option.map_eq_some_iff] at hv
      obtain ⟨w, hw, rfl⟩ := hv
      have wi := ih.wait w hw
      exact ⟨wi.ok, wi.target, wi.start, wi.due, wi.max, fun _ => rfl⟩
    | take =>
      simp only [Shadow.Sleep.step, Option.some.injEq, R.ok.injEq] at hs
      subst hs
      refine ⟨ih.now, fun v hv => ?_⟩
      have wi := ih.wait v hv
      exact ⟨wi.ok, wi.target, wi.start, wi.due, wi.max, fun h => by cases h⟩
    | tick d =>
      simp only [Shadow.Sleep.step, Option.some.injEq, R.ok.injEq] at hs
      subst hs
      refine ⟨⟨Nat.le_trans ih.now.1 (Nat.le_add_right _ _), ha.1⟩, fun v hv => ?_⟩
      have wi := ih.wait v hv
      exact ⟨wi.ok, wi.target, ⟨Nat.le_trans wi.start.1 (Nat.le_add_right _ _), wi.start.2⟩, (ha.2 v hv).2, wi.max, wi.sig⟩

theorem log_ne {l : List Ret} {r : Ret} (h : l = l ++ [r]) : False := by
  have := congrArg List.length h
  simp at this

/-- How a call can end: at once or after a sleep. -/
theorem ends_cases {s s' : St} {a : Act} {r : Ret} (hr : Run s) (h : Ends s a s' r) :
    r.time = s.now ∧ s'.wait = none ∧
    ((∃ e, r.call.refused = some e ∧ r.errno = e ∧ r.rem = none ∧ r.start = s.now) ∨
     (r.call.refused = none ∧ r.errno = 0 ∧ r.rem = none ∧ r.start = s.now ∧ r.call.target r.start ≤ s.now) ∨
     (r.call.refused = none ∧ r.errno = 4 ∧ r.rem = none ∧ r.start = s.now ∧ s.now < r.call.target r.start ∧ s.sig = true) ∨
     (∃ w, s.wait = some w ∧ r.call = w.call ∧ r.start = w.start ∧ r.errno = 0 ∧ r.rem = none ∧ w.deadline ≤ s.now) ∨
     (∃ w, s.wait = some w ∧ r.call = w.call ∧ r.start = w.start ∧ r.errno = 4 ∧ s.sig = true ∧ s.now < w.deadline ∧
        r.rem = if w.call.rem && !w.call.abs then
          some ((((w.deadline - s.now) / 1000000000 : Nat), ((w.deadline - s.now) % 1000000000 : Nat)) : Int × Int) else none)) := by
  obtain ⟨hs, hl⟩ := h
  have nolog : s'.log = s.log → False := fun e => log_ne (e.symm.trans hl)
  cases a with
  | call c =>
    simp only [step] at hs
    split at hs
    · simp only [Option.some.injEq] at hs
      rcases run_new hs with ⟨e, he, rfl⟩ | ⟨hr, hm, ⟨hle, rfl⟩ | ⟨hlt, hsg, rfl⟩ | ⟨hlt, hsg, rfl⟩⟩
      · simp only [List.append_cancel_left_eq, List.cons.injEq, and_true] at hl
        subst hl
        exact ⟨rfl, rfl, .inl ⟨e, he, rfl, rfl, rfl⟩⟩
      · simp only [List.append_cancel_left_eq, List.cons.injEq, and_true] at hl
        subst hl
        exact ⟨rfl, rfl, .inr (.inl ⟨hr, rfl, rfl, rfl, hle⟩)⟩
      · simp only [List.append_cancel_left_eq, List.cons.injEq, and_true] at hl
        subst hl
        exact ⟨rfl, rfl, .inr (.inr (.inl ⟨hr, rfl, rfl, rfl, hlt, hsg⟩))⟩
      · exact (nolog rfl).elim
    · cases hs
  | wake =>
    simp only [step] at hs
    split at hs
    · rename_i w hw
      split at hs
      · simp only [Option.some.injEq] at hs
        split at hs
        · rename_i hsat
          rcases run_again (hr.inv.wait w hw) hs with ⟨hle, rfl⟩ | ⟨hlt, rem, rfl, hrem⟩
          · simp only [List.append_cancel_left_eq, List.cons.injEq, and_true] at hl
            subst hl
            exact ⟨rfl, rfl, .inr (.inr (.inr (.inl ⟨w, hw, rfl, rfl, rfl, rfl, hle⟩)))⟩
          · simp only [List.append_cancel_left_eq, List.cons.injEq, and_true] at hl
            subst hl
            refine ⟨rfl, rfl, .inr (.inr (.inr (.inr ⟨w, hw, rfl, rfl, rfl, ?_, hlt, hrem⟩)))⟩
            simp only [Bool.or_eq_true, decide_eq_true_eq] at hsat
            exact hsat.resolve_left (by omega)
        · simp only [R.ok.injEq] at hs
          subst hs
          exact (nolog rfl).elim
      · cases hs
    · cases hs
  | signal => simp only [step, Option.some.injEq, R.ok.injEq] at hs; subst hs; exact (nolog rfl).elim
  | take => simp only [step, Option.some.injEq, R.ok.injEq] at hs; subst hs; exact (nolog rfl).elim
  | tick d => simp only [step, Option.some.injEq, R.ok.injEq] at hs; subst hs; exact (nolog rfl).elim

/-! ## Sleeping -/

/-- **C73, a sleep is exact.**  A sleep that returns zero does so at the nanosecond that was asked for: the time of the call plus the duration, or the point
in time that was named, and at once if this is past. -/
theorem C73_exact {s s' : St} {a : Act} {r : Ret} (h : Run s) (he : Ends s a s' r) (h0 : r.errno = 0) :
    (r.time : Int) = if r.call.abs then max (r.start : Int) (ns r.call.req) else r.start + ns r.call.req := by
  obtain ⟨ht, _, hc⟩ := ends_cases h he
  rw [ht]
  rcases hc with ⟨e, hr, hre, _⟩ | ⟨hr, _, _, hst, hle⟩ | ⟨_, h4, _⟩ | ⟨w, hw, hcall, hst, _, _, hle⟩ | ⟨_, _, _, _, h4, _⟩
  · exfalso
    rw [hre] at h0; subst h0
    unfold Call.refused at hr
    revert hr
    cases r.call with
    | nano q m => simp only; split <;> simp
    | clock id f q m =>
      simp only
      split
      · simp
      · split
        · split <;> simp
        · split
          · split <;> simp
          · simp
  · have hn := ns_nonneg (good_of hr)
    unfold Call.target at hle
    rw [hst] at hle ⊢
    split <;> rename_i hab
    · rw [if_pos hab] at hle; omega
    · rw [if_neg hab] at hle; omega
  · rw [h0] at h4; cases h4
  · have wi := h.inv.wait w hw
    have h1 := wi.target
    have h2 := wi.due
    have h3 := wi.start
    rw [hcall, hst]
    unfold Call.target at h1
    split <;> rename_i hab
    · rw [if_pos hab] at h1; omega
    · rw [if_neg hab] at h1; omega
  · rw [h0] at h4; cases h4

/-- **C73, an interrupted sleep.**  A sleep returns `EINTR` only if a signal is there and before its time is over.  If it had begun to sleep, the remaining
time is written exactly if it was asked for and the sleep was a duration; together with the time that has passed it is the duration. -/
theorem C73_interrupted {s s' : St} {a : Act} {r : Ret} (h : Run s) (he : Ends s a s' r) :
    (r.errno = 4 → s.sig = true ∧ (r.time : Int) < r.call.target r.start) ∧
    (r.errno = 4 → s.wait ≠ none → (r.rem.isSome = true ↔ r.call.rem = true ∧ r.call.abs = false)) ∧
    (∀ q, r.rem = some q → r.errno = 4 ∧ 0 < ns q ∧ 0 ≤ q.1 ∧ 0 ≤ q.2 ∧ q.2 < 1000000000 ∧
      (r.time : Int) - r.start + ns q = ns r.call.req) := by
  obtain ⟨ht, _, hc⟩ := ends_cases h he
  have hw0 : r.start = s.now ∧ s.wait = none ∨ s.wait ≠ none := by
    by_cases hw : s.wait = none
    · left
      refine ⟨?_, hw⟩
      rcases hc with ⟨_, _, _, _, hc⟩ | ⟨_, _, _, hc, _⟩ | ⟨_, _, _, hc, _⟩ | ⟨w, hc, _⟩ | ⟨w, hc, _⟩
      · exact hc
      · exact hc
      · exact hc
      · rw [hw] at hc; cases hc
      · rw [hw] at hc; cases hc
    · exact .inr hw
  have hne : ∀ e, r.call.refused = some e → e ≠ 4 := by
    intro e
    unfold Call.refused
    cases r.call with
    | nano q m => simp only; split <;> simp <;> omega
    | clock id f q m =>
      simp only
      split
      · simp; omega
      · split
        · split <;> simp <;> omega
        · split
          · split <;> simp <;> omega
          · simp; omega
  refine ⟨fun h4 => ?_, fun h4 hw => ?_, fun q hq => ?_⟩
  · rw [ht]
    rcases hc with ⟨e, hr, hre, _⟩ | ⟨_, h0, _⟩ | ⟨_, _, _, _, hlt, hsg⟩ | ⟨w, _, _, _, h0, _⟩ | ⟨w, hw, hcall, hst, _, hsg, hlt, _⟩
    · exact absurd (hre ▸ h4) (hne e hr)
    · rw [h0] at h4; cases h4
    · exact ⟨hsg, hlt⟩
    · rw [h0] at h4; cases h4
    · have := (h.inv.wait w hw).target
      exact ⟨hsg, by rw [hcall, hst]; omega⟩
  · have hwake : a = .wake := by
      obtain ⟨hs, hl⟩ := he
      cases a with
      | call c =>
        simp only [step] at hs
        split at hs
        · rename_i hn; exact absurd (by simpa using hn) hw
        · cases hs
      | wake => rfl
      | signal => simp only [step, Option.some.injEq, R.ok.injEq] at hs; subst hs; exact (log_ne hl).elim
      | take => simp only [step, Option.some.injEq, R.ok.injEq] at hs; subst hs; exact (log_ne hl).elim
      | tick d => simp only [step, Option.some.injEq, R.ok.injEq] at hs; subst hs; exact (log_ne hl).elim
    subst hwake
    obtain ⟨hs, hl⟩ := he
    simp only [step] at hs
    split at hs
    · rename_i w hw
      split at hs
      · simp only [Option.some.injEq] at hs
        split at hs
        · rcases run_again (h.inv.wait w hw) hs with ⟨hle, rfl⟩ | ⟨hlt, rem, rfl, hrem⟩
          · simp only [List.append_cancel_left_eq, List.cons.injEq, and_true] at hl
            subst hl; cases h4
          · simp only [List.append_cancel_left_eq, List.cons.injEq, and_true] at hl
            subst hl
            simp only [hrem]
            split <;> rename_i hb
            · simpa using hb
            · simpa using hb
        · simp only [R.ok.injEq] at hs
          subst hs
          exact (log_ne hl).elim
      · cases hs
    · cases hs
  · rw [ht]
    rcases hc with ⟨e, _, _, hn, _⟩ | ⟨_, _, hn, _⟩ | ⟨_, _, hn, _⟩ | ⟨w, _, _, _, _, hn, _⟩ | ⟨w, hw, hcall, hst, h4, hsg, hlt, hrem⟩
    · rw [hn] at hq; cases hq
    · rw [hn] at hq; cases hq
    · rw [hn] at hq; cases hq
    · rw [hn] at hq; cases hq
    · rw [hq] at hrem
      split at hrem
      · rename_i hb
        simp only [Bool.and_eq_true, Bool.not_eq_true'] at hb
        simp only [Option.some.injEq] at hrem
        have wi := h.inv.wait w hw
        have h1 := wi.target
        unfold Call.target at h1
        rw [if_neg (by simp [hb.2])] at h1
        have h3 := wi.start
        rw [hcall, hst]
        subst hrem
        refine ⟨h4, ?_, ?_, ?_, ?_, ?_⟩ <;> simp only [ns] at h1 ⊢ <;> omega
      · cases hrem

/-- **C73, who may sleep.**  A call is refused exactly as `Call.refused` says, at once, and every other call returns zero or `EINTR`. -/
theorem C73_errors {s s' : St} {a : Act} {r : Ret} (h : Run s) (he : Ends s a s' r) :
    (∀ e, r.call.refused = some e → r.errno = e ∧ r.time = r.start) ∧ (r.call.refused = none → r.errno = 0 ∨ r.errno = 4) := by
  obtain ⟨ht, _, hc⟩ := ends_cases h he
  rcases hc with ⟨e, hr, hre, _, hst⟩ | ⟨hr, h0, _⟩ | ⟨hr, h4, _⟩ | ⟨w, hw, hcall, _, h0, _⟩ | ⟨w, hw, hcall, _, h4, _⟩
  · exact ⟨fun e' he' => by rw [hr] at he'; cases he'; exact ⟨hre, by rw [ht, hst]⟩, fun hn => by rw [hr] at hn; cases hn⟩
  · exact ⟨fun e he => (by rw [hr] at he; cases he), fun _ => .inl h0⟩
  · exact ⟨fun e he => (by rw [hr] at he; cases he), fun _ => .inr h4⟩
  · have := (h.inv.wait w hw).ok
    rw [← hcall] at this
    exact ⟨fun e he => (by rw [this] at he; cases he), fun _ => .inl h0⟩
  · have := (h.inv.wait w hw).ok
    rw [← hcall] at this
    exact ⟨fun e he => (by rw [this] at he; cases he), fun _ => .inr h4⟩

/-- **C73, waking.**  A sleep is never overdue.  When its time is over, or a signal is there, the thread is woken and the call returns: with zero in the first
case, with `EINTR` in the second.  The sum of the clock and the duration fits into the clock. -/
theorem C73_wake {s : St} {w : Wait} (h : Run s) (hw : s.wait = some w) (hf : w.call.target s.now ≤ 18446744073709551614) :
    (s.now : Int) ≤ w.call.target w.start ∧
    ((s.now : Int) = w.call.target w.start → ∃ s' r, Ends s .wake s' r ∧ s'.wait = none ∧ r.errno = 0) ∧
    (s.sig = true → w.sched = true ∧
      ((s.now : Int) < w.call.target w.start → ∃ s' r, Ends s .wake s' r ∧ s'.wait = none ∧ r.errno = 4)) := by
  have wi := h.inv.wait w hw
  have ht := wi.target
  have hd := wi.due
  have hgo : (w.sched || decide (w.deadline ≤ s.now)) = true → (decide (w.deadline ≤ s.now) || s.sig) = true →
      ∃ s', step s .wake = some (.ok s') ∧ s.run w.call (some w.deadline) w.start = .ok s' := by
    intro h1 h2
    have hst := wi.start
    have hok : ∃ s', s.run w.call (some w.deadline) w.start = .ok s' := by
      unfold St.run
      rw [handle_eq, wi.ok]
      simp only [body]
      rw [if_pos hf]
      split
      · exact ⟨_, rfl⟩
      · split
        · exact ⟨_, rfl⟩
        · split
          · rw [if_pos (by
              have := wi.max
              rw [emuMax_eq] at this
              have hn := h.inv.now.1
              rw [simStart_eq] at hn
              omega)]
            exact ⟨_, rfl⟩
          · exact ⟨_, rfl⟩
    obtain ⟨s', e⟩ := hok
    refine ⟨s', ?_, e⟩
    simp only [step, hw, h1, h2, if_true]
    rw [e]
  refine ⟨by omega, fun hnow => ?_, fun hsg => ⟨wi.sig hsg, fun hlt => ?_⟩⟩
  · obtain ⟨s', e, e'⟩ := hgo (by simp; omega) (by simp; omega)
    rcases run_again wi e' with ⟨_, rfl⟩ | ⟨hlt, _⟩
    · exact ⟨_, _, ⟨e, rfl⟩, rfl, rfl⟩
    · omega
  · obtain ⟨s', e, e'⟩ := hgo (by simp [wi.sig hsg]) (by simp [hsg])
    rcases run_again wi e' with ⟨hle, _⟩ | ⟨_, rem, rfl, _⟩
    · omega
    · exact ⟨_, _, ⟨e, rfl⟩, rfl, rfl⟩

/-- **C73, no crash.**  A call whose end fits into the clock returns or sleeps. -/
theorem C73_safe {s : St} {c : Call} (hw : s.wait = none) (hf : c.refused = none → c.target s.now ≤ 18446744073709551614) :
    ∃ s', step s (.call c) = some (.ok s') := by
  simp only [step, hw, Option.isNone_none, if_true, Option.some.injEq]
  unfold St.run
  rw [handle_eq]
  cases hr : c.refused with
  | some e => exact ⟨_, rfl⟩
  | none =>
    simp only [body]
    rw [if_pos (hf hr)]
    split
    · exact ⟨_, rfl⟩
    · simp only [R.bind_ok]
      split
      · exact ⟨_, rfl⟩
      · rw [show decide (s.now ≤ (c.target s.now).toNat) = true by simp; omega]
        exact ⟨_, rfl⟩

end Shadow.Sleep
