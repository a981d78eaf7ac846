import Verif.Calls.Model

/-!
# C66: every system call is executed to its end once and answered with that result

The specification reads the log only: `Spec` is where a single call is, `look` says which
event may follow and what it must contain.
-/

namespace Shadow.Calls
open Shadow.Base

/-! ## Specification -/

/-- A call from the point of view of the program: there is none; it was made and has no
result yet; it has a result, which may be held back until a time. `sig`: the last wakeup came
with a signal. -/
inductive Spec where
  | idle
  | opened (number : Int) (args : List Nat)
  | decided (number : Int) (args : List Nat) (r : Res) (due : Option Nat) (sig : Bool)
deriving DecidableEq, Repr

/-- What may happen next. A body is executed only while the call has no result, with the
number and arguments of the call; the call has its result as soon as a body does not block,
or blocks while a signal waits (then it is EINTR, restartable as the body said). A result is
handed over unchanged, to the call that it belongs to, and if it was held back then only when
the time is reached or with a signal. -/
def look : Spec → Ev → Option Spec
  | .idle, .call n a => some (.opened n a)
  | .opened n a, .run n' a' r sig =>
    if n' = n ∧ a' = a then
      match r, sig with
      | .blocked _ rs, true => some (.decided n a (.failed 4 rs) none false)
      | .blocked _ _, false => some (.opened n a)
      | r, _ => some (.decided n a r none false)
    else none
  | .opened n a, .wake _ _ => some (.opened n a)
  | .decided n a r none g, .delay t => some (.decided n a r (some t) g)
  | .decided n a r (some t) _, .wake _ sig => some (.decided n a r (some t) sig)
  | .decided n a r due g, .ret n' a' r' t =>
    if n' = n ∧ a' = a ∧ r' = r ∧ (g = true ∨ ∀ d, due = some d → d ≤ t) then some .idle else none
  | _, _ => none

/-- Read a whole log. -/
def lookAll (sp : Spec) : List Ev → Option Spec
  | [] => some sp
  | e :: es => (look sp e).bind (lookAll · es)

/-- The calls in a log. -/
def calls (l : List Ev) : List Int :=
  l.filterMap fun e => match e with | .call n _ => some n | _ => none

/-- The answers in a log. -/
def answers (l : List Ev) : Nat :=
  l.countP fun e => match e with | .ret .. => true | _ => false

/-- The executions of bodies that did not want to block. -/
def completed (l : List Ev) : Nat :=
  l.countP fun e => match e with
    | .run _ _ (.blocked _ _) _ => false | .run .. => true | _ => false

/-- The executions of bodies that wanted to block while a signal waited. -/
def cut (l : List Ev) : Nat :=
  l.countP fun e => match e with | .run _ _ (.blocked _ _) true => true | _ => false

theorem lookAll_append (sp : Spec) (l m : List Ev) :
    lookAll sp (l ++ m) = (lookAll sp l).bind (lookAll · m) := by
  induction l generalizing sp with
  | nil => rfl
  | cons e l ih =>
    simp only [List.cons_append, lookAll]
    cases look sp e with
    | none => rfl
    | some sp' => exact ih sp'

/-! ## Invariant -/

/-- How the state and the specification belong together. -/
def Match (s : St) (sp : Spec) : Prop :=
  match s.ph with
  | .free => sp = .idle ∧ s.h.pending = none ∧ s.h.blockedCall = none
  | .waiting n a c => 0 ≤ n ∧ n < 4294967296 ∧ s.h.blockedCall = some n.toNat ∧
    ((sp = .opened n a ∧ s.h.pending = none) ∨
     (∃ r d g, sp = .decided n a r (some d) g ∧ s.h.pending = some r ∧ r.isBlocked = false ∧
        c = { timeout := some d }))

structure Inv (cfg : Cfg) (count : Bool) (s : St) : Prop where
  spec : ∃ sp, lookAll .idle s.log = some sp ∧ Match s sp
  num : s.h.num = completed s.log
  counter : s.h.counter =
    if count then some ((calls s.log).map fun n => (cfg.name n.toNat).getD "unknown-syscall") else none
  ends : completed s.log + cut s.log = answers s.log + (if s.h.pending.isSome then 1 else 0)

theorem execute_cases {cfg : Cfg} {h : Handler} {w : World} {n : Nat} {o : Orc}
    {h' : Handler} {w' : World} {r' : Res} {ran : Bool}
    (he : h.execute cfg w n o = .ok (h', w', r', ran)) (hp : h.pending = none) :
    ran = true ∧ ∃ num counter,
      num = (if o.body.isBlocked then h.num else h.num + 1) ∧
      counter = (if h.blockedCall.isNone then
        h.counter.map (· ++ [(cfg.name n).getD "unknown-syscall"]) else h.counter) ∧
      ((∃ c rs, o.body = .blocked c rs ∧ o.sig = false ∧ r' = .blocked c rs ∧ w' = w ∧
          h' = ⟨num, counter, some n, none⟩) ∨
       (r'.isBlocked = false ∧ r' = interrupted o.body o.sig ∧
          w.now ≤ w'.now ∧ (w.now = w'.now ∨ w'.now ≤ o.ahead) ∧
          (o.running = true → w'.unapplied ≤ cfg.maxLat) ∧
          h' = ⟨num, counter, none, none⟩) ∨
       (∃ r t, r.isBlocked = false ∧ r = interrupted o.body o.sig ∧ o.ahead < t ∧ w.now < t ∧
          r' = .blocked { timeout := some t } false ∧ w' = { w with unapplied := 0 } ∧
          h' = ⟨num, counter, some n, some r⟩)) := by
  obtain ⟨num, counter, bc, pend⟩ := h
  simp only at hp
  subst hp
  have hg : (if o.body.isBlocked = true then
      (if (Handler.mk num counter bc none).blockedCall.isNone = true then
        { Handler.mk num counter bc none with counter := counter.map (· ++ [cfg.callName n]) }
        else Handler.mk num counter bc none)
      else { (if (Handler.mk num counter bc none).blockedCall.isNone = true then
        { Handler.mk num counter bc none with counter := counter.map (· ++ [cfg.callName n]) }
        else Handler.mk num counter bc none) with
          num := (if (Handler.mk num counter bc none).blockedCall.isNone = true then
        { Handler.mk num counter bc none with counter := counter.map (· ++ [cfg.callName n]) }
        else Handler.mk num counter bc none).num + 1 }) =
      Handler.mk (if o.body.isBlocked then num else num + 1)
        (if bc.isNone then counter.map (· ++ [(cfg.name n).getD "unknown-syscall"]) else counter)
        bc none := by
    cases bc <;> cases o.body.isBlocked <;> rfl
  unfold Handler.execute at he
  simp only at he
  rw [hg] at he
  clear hg
  have hi : interrupted o.body o.sig = o.body ∧ o.sig = false ∨ (interrupted o.body o.sig).isBlocked = false := by
    cases hb : o.body <;> cases hs : o.sig <;> simp [interrupted, Res.isBlocked]
  cases hr : (interrupted o.body o.sig).isBlocked with
  | true =>
    have hi := hi.resolve_right (by rw [hr]; decide)
    rw [hr] at he
    simp only [Bool.not_true, Bool.and_false, Bool.false_eq_true, if_false, Handler.finish, hr,
      if_true] at he
    cases he
    refine ⟨rfl, _, _, rfl, rfl, .inl ?_⟩
    rw [hi.1] at hr ⊢
    cases hb : o.body with
    | blocked c rs => exact ⟨c, rs, rfl, hi.2, rfl, rfl, rfl⟩
    | _ => rw [hb] at hr; cases hr
  | false =>
    rw [hr] at he
    simp only [Bool.not_false, Bool.and_true] at he
    cases hrun : o.running with
    | false =>
      rw [hrun] at he
      simp only [Bool.false_eq_true, if_false, Handler.finish, hr] at he
      cases he
      exact ⟨rfl, _, _, rfl, rfl, .inr (.inl ⟨hr, rfl, Nat.le_refl _, .inl rfl, (nomatch ·), rfl⟩)⟩
    | true =>
      rw [hrun] at he
      simp only [if_true] at he
      by_cases hu : cfg.charge n w.unapplied > cfg.maxLat
      · rw [if_pos hu] at he
        by_cases ht : w.now + cfg.charge n w.unapplied ≤ o.ahead
        · rw [if_pos ht] at he
          simp only [Handler.finish, hr, Bool.false_eq_true, if_false] at he
          cases he
          exact ⟨rfl, _, _, rfl, rfl, .inr (.inl ⟨hr, rfl, Nat.le_add_right _ _, .inr ht,
            fun _ => Nat.zero_le _, rfl⟩)⟩
        · rw [if_neg ht] at he
          simp only [Option.isNone_none, R.assert_true, R.bind_ok, Handler.finish, Res.isBlocked,
            if_true] at he
          cases he
          exact ⟨rfl, _, _, rfl, rfl, .inr (.inr ⟨_, _, hr, rfl, Nat.lt_of_not_le ht, by omega,
            rfl, rfl, rfl⟩)⟩
      · rw [if_neg hu] at he
        simp only [Handler.finish, hr, Bool.false_eq_true, if_false] at he
        cases he
        exact ⟨rfl, _, _, rfl, rfl, .inr (.inl ⟨hr, rfl, Nat.le_refl _, .inl rfl,
          fun _ => Nat.le_of_not_lt hu, rfl⟩)⟩

/-- What handing over a call to the handler does, case by case. -/
theorem hand_cases {cfg : Cfg} {s s' : St} {n : Int} {a : List Nat} {o : Orc}
    (h : hand cfg s n a o = .ok s') (hn : 0 ≤ n ∧ n < 4294967296) :
    (∃ r, s.h.pending = some r ∧ r.isBlocked = false ∧
      s' = { h := { s.h with blockedCall := none, pending := none }, w := s.w, ph := .free,
             log := s.log ++ [.ret n a r s.w.now] }) ∨
    (s.h.pending = none ∧
      ∃ num counter,
        num = (if o.body.isBlocked then s.h.num else s.h.num + 1) ∧
        counter = (if s.h.blockedCall.isNone then
          s.h.counter.map (· ++ [(cfg.name n.toNat).getD "unknown-syscall"]) else s.h.counter) ∧
        ((∃ c rs, o.body = .blocked c rs ∧ o.sig = false ∧
            s' = { h := ⟨num, counter, some n.toNat, none⟩, w := s.w, ph := .waiting n a c,
                   log := s.log ++ [.run n a o.body o.sig] }) ∨
         (∃ r w, r.isBlocked = false ∧ r = interrupted o.body o.sig ∧
            s.w.now ≤ w.now ∧ (s.w.now = w.now ∨ w.now ≤ o.ahead) ∧
            (o.running = true → w.unapplied ≤ cfg.maxLat) ∧
            s' = { h := ⟨num, counter, none, none⟩, w := w, ph := .free,
                   log := s.log ++ [.run n a o.body o.sig] ++ [.ret n a r w.now] }) ∨
         (∃ r t, r.isBlocked = false ∧ r = interrupted o.body o.sig ∧ o.ahead < t ∧ s.w.now < t ∧
            s' = { h := ⟨num, counter, some n.toNat, some r⟩, w := { s.w with unapplied := 0 },
                   ph := .waiting n a { timeout := some t },
                   log := s.log ++ [.run n a o.body o.sig] ++ [.delay t] }))) := by
  unfold hand Handler.syscall toNum at h
  rw [if_pos hn] at h
  simp only [R.bind_ok] at h
  cases hb : (s.h.blockedCall.isNone || s.h.blockedCall == some n.toNat) with
  | false => rw [hb] at h; cases h
  | true =>
    rw [hb] at h
    simp only [R.assert_true, R.bind_ok] at h
    cases hp : s.h.pending with
    | some r =>
      rw [hp] at h
      left
      cases hr : r.isBlocked with
      | true => simp only [hr] at h; cases h
      | false =>
        refine ⟨r, rfl, hr, ?_⟩
        simp only [hr] at h
        cases r with
        | blocked c rs => cases hr
        | _ => cases h; rfl
    | none =>
      rw [hp] at h
      right
      refine ⟨rfl, ?_⟩
      obtain ⟨⟨h', w', r', ran⟩, he, hk⟩ := R.bind_eq_ok.1 h
      obtain ⟨rfl, num, counter, hnum, hcounter, hc⟩ := execute_cases he hp
      refine ⟨num, counter, hnum, hcounter, ?_⟩
      rcases hc with ⟨c, rs, hb, hs, rfl, rfl, rfl⟩ | ⟨hr, hi, ht, ht', hu, rfl⟩ |
          ⟨r, t, hr, hi, ht, ht', rfl, rfl, rfl⟩
      · left
        refine ⟨c, rs, hb, hs, ?_⟩
        simp only [if_true] at hk
        cases hk; rfl
      · right; left
        refine ⟨r', w', hr, hi, ht, ht', hu, ?_⟩
        cases r' with
        | blocked c rs => cases hr
        | _ => cases hk; rfl
      · right; right
        refine ⟨r, t, hr, hi, ht, ht', ?_⟩
        cases hk; rfl

theorem completed_snoc (l : List Ev) (e : Ev) : completed (l ++ [e]) = completed l + completed [e] :=
  List.countP_append

theorem cut_snoc (l : List Ev) (e : Ev) : cut (l ++ [e]) = cut l + cut [e] :=
  List.countP_append

theorem answers_snoc (l : List Ev) (e : Ev) : answers (l ++ [e]) = answers l + answers [e] :=
  List.countP_append

theorem calls_snoc (l : List Ev) (e : Ev) : calls (l ++ [e]) = calls l ++ calls [e] :=
  List.filterMap_append

theorem look_run {n : Int} {a : List Nat} {b : Res} {sig : Bool} {l : List Ev}
    (h : lookAll .idle l = some (.opened n a))
    (hr : (interrupted b sig).isBlocked = false) :
    lookAll .idle (l ++ [.run n a b sig]) = some (.decided n a (interrupted b sig) none false) := by
  rw [lookAll_append, h]
  cases b <;> cases sig <;>
    simp_all [lookAll, look, interrupted, Res.isBlocked, EINTR]

theorem run_counts {n : Int} {a : List Nat} {b : Res} {sig : Bool}
    (hr : (interrupted b sig).isBlocked = false) :
    completed [.run n a b sig] + cut [.run n a b sig] = 1 := by
  cases b <;> cases sig <;> simp_all [completed, cut, interrupted, Res.isBlocked]

theorem completed_run (n : Int) (a : List Nat) (b : Res) (sig : Bool) :
    completed [.run n a b sig] = if b.isBlocked then 0 else 1 := by
  cases b <;> cases sig <;> rfl

/-- Handing over a call keeps the invariant. -/
theorem hand_inv {cfg : Cfg} {count : Bool} {s s' : St} {n : Int} {a : List Nat} {o : Orc}
    (h : hand cfg s n a o = .ok s') (hn : 0 ≤ n ∧ n < 4294967296)
    (hs : (lookAll .idle s.log = some (.opened n a) ∧ s.h.pending = none) ∨
      (∃ r d g, lookAll .idle s.log = some (.decided n a r (some d) g) ∧ s.h.pending = some r ∧
        s.h.blockedCall ≠ none ∧ (g = true ∨ d ≤ s.w.now)))
    (hnum : s.h.num = completed s.log)
    (hcount : (if s.h.blockedCall.isNone then
          s.h.counter.map (· ++ [(cfg.name n.toNat).getD "unknown-syscall"]) else s.h.counter) =
        if count then some ((calls s.log).map fun n => (cfg.name n.toNat).getD "unknown-syscall")
        else none)
    (hends : completed s.log + cut s.log = answers s.log + (if s.h.pending.isSome then 1 else 0)) :
    Inv cfg count s' := by
  rcases hand_cases h hn with ⟨r, hp, hr, rfl⟩ | ⟨hp, num, counter, rfl, rfl, hc⟩
  · rcases hs with ⟨-, hp'⟩ | ⟨r', d, g, hl, hp', hb, hd⟩
    · rw [hp] at hp'; cases hp'
    · rw [hp] at hp'; cases hp'
      refine ⟨⟨.idle, ?_, rfl, rfl, rfl⟩, ?_, ?_, ?_⟩
      · rw [lookAll_append, hl]
        simp [lookAll, look, hd]
      · rw [completed_snoc]; exact hnum
      · rw [calls_snoc]
        cases hbc : s.h.blockedCall with
        | none => exact absurd hbc hb
        | some _ => rw [hbc] at hcount; simpa [calls] using hcount
      · rw [completed_snoc, cut_snoc, answers_snoc]
        rw [hp] at hends
        exact hends
  · rcases hs with ⟨hl, -⟩ | ⟨r', d, g, -, hp', -⟩
    · rw [hp] at hends
      simp only [Option.isSome_none, Bool.false_eq_true, if_false] at hends
      have hnum' : (if o.body.isBlocked then s.h.num else s.h.num + 1) =
          completed s.log + completed [.run n a o.body o.sig] := by
        rw [completed_run, hnum]; split <;> rfl
      rcases hc with ⟨c, rs, hb, hsig, rfl⟩ | ⟨r, w, hr, hi, -, -, -, rfl⟩ | ⟨r, t, hr, hi, -, -, rfl⟩
      · refine ⟨⟨.opened n a, ?_, hn.1, hn.2, rfl, .inl ⟨rfl, rfl⟩⟩, ?_, ?_, ?_⟩
        · rw [lookAll_append, hl, hb, hsig]
          simp [lookAll, look]
        · rw [completed_snoc]; exact hnum'
        · rw [calls_snoc]; simpa [calls] using hcount
        · rw [completed_snoc, cut_snoc, answers_snoc, hb, hsig]
          exact hends
      · subst hi
        refine ⟨⟨.idle, ?_, rfl, rfl, rfl⟩, ?_, ?_, ?_⟩
        · rw [lookAll_append, look_run hl hr]
          simp [lookAll, look]
        · rw [completed_snoc, completed_snoc]; exact hnum'
        · rw [calls_snoc, calls_snoc]; simpa [calls] using hcount
        · rw [completed_snoc, completed_snoc, cut_snoc, cut_snoc, answers_snoc, answers_snoc]
          have := run_counts (n := n) (a := a) hr
          have e1 : answers [.run n a o.body o.sig] = 0 := rfl
          have e2 : answers [.ret n a (interrupted o.body o.sig) w.now] = 1 := rfl
          have e3 : completed [.ret n a (interrupted o.body o.sig) w.now] = 0 := rfl
          have e4 : cut [.ret n a (interrupted o.body o.sig) w.now] = 0 := rfl
          simp only [Option.isSome_none, Bool.false_eq_true, if_false]
          omega
      · subst hi
        refine ⟨⟨.decided n a (interrupted o.body o.sig) (some t) false, ?_, hn.1, hn.2, rfl,
          .inr ⟨_, t, false, rfl, rfl, hr, rfl⟩⟩, ?_, ?_, ?_⟩
        · rw [lookAll_append, look_run hl hr]
          simp [lookAll, look]
        · rw [completed_snoc, completed_snoc]; exact hnum'
        · rw [calls_snoc, calls_snoc]; simpa [calls] using hcount
        · rw [completed_snoc, completed_snoc, cut_snoc, cut_snoc, answers_snoc, answers_snoc]
          have := run_counts (n := n) (a := a) hr
          have e1 : answers [.run n a o.body o.sig] = 0 := rfl
          have e2 : answers [.delay t] = 0 := rfl
          have e3 : completed [.delay t] = 0 := rfl
          have e4 : cut [.delay t] = 0 := rfl
          simp only [Option.isSome_some, if_true]
          omega
    · rw [hp] at hp'; cases hp'

theorem map_snoc_opt (count : Bool) (l : List Int) (n : Int) (f : Int → String) :
    Option.map (· ++ [f n]) (if count then some (l.map f) else none) =
      if count then some ((l ++ [n]).map f) else none := by
  cases count <;> simp

/-- Every step keeps the invariant. -/
theorem step_inv {cfg : Cfg} {count : Bool} {s s' : St} {a : Act} (hi : Inv cfg count s)
    (ha : allowed s a) (h : step cfg s a = some (.ok s')) : Inv cfg count s' := by
  obtain ⟨⟨sp, hl, hm⟩, hnum, hcount, hends⟩ := hi
  cases a with
  | tick t => cases h; exact ⟨⟨sp, hl, hm⟩, hnum, hcount, hends⟩
  | cpu u => cases h; exact ⟨⟨sp, hl, hm⟩, hnum, hcount, hends⟩
  | call n args o =>
    simp only [step] at h
    by_cases hph : s.ph = .free
    · rw [if_pos hph] at h
      simp only [Option.some.injEq] at h
      simp only [Match, hph] at hm
      obtain ⟨rfl, hp, hb⟩ := hm
      refine hand_inv h ha (.inl ⟨?_, hp⟩) ?_ ?_ ?_
      · simp only [lookAll_append, hl]
        rfl
      · simp only [completed_snoc]; exact hnum
      · simp only [calls_snoc, hb, hcount, Option.isNone_none, if_true]
        exact map_snoc_opt count (calls s.log) n _
      · simp only [completed_snoc, cut_snoc, answers_snoc]; exact hends
    · rw [if_neg hph] at h; cases h
  | resume o =>
    cases hph : s.ph with
    | free => simp only [step, hph] at h; cases h
    | waiting n args c =>
      simp only [step, hph, Option.some.injEq] at h
      simp only [Match, hph] at hm
      simp only [allowed, hph] at ha
      obtain ⟨hn, hn', hb, hm⟩ := hm
      refine hand_inv h ⟨hn, hn'⟩ ?_ ?_ ?_ ?_
      · rcases hm with ⟨rfl, hp⟩ | ⟨r, d, g, rfl, hp, hr, rfl⟩
        · refine .inl ⟨?_, hp⟩
          simp only [lookAll_append, hl]; rfl
        · refine .inr ⟨r, d, o.sig, ?_, hp, by rw [hb]; exact nofun, ?_⟩
          · simp only [lookAll_append, hl]; rfl
          · rcases ha with ⟨t, ht, ht'⟩ | hs | ht
            · cases ht; exact .inr ht'
            · exact .inl hs
            · exact absurd rfl ht
      · simp only [completed_snoc]; exact hnum
      · simp only [calls_snoc, hb, hcount]
        simp [calls]
      · simp only [completed_snoc, cut_snoc, answers_snoc]; exact hends

theorem Run.inv {cfg : Cfg} {count : Bool} {t0 : Nat} {s : St} (h : Run cfg count t0 s) :
    Inv cfg count s := by
  induction h with
  | init =>
    refine ⟨⟨.idle, rfl, rfl, rfl, rfl⟩, rfl, ?_, rfl⟩
    cases count <;> rfl
  | step _ ha hs ih => exact step_inv ih ha hs

/-! ## The theorems -/

/-- **C66.** Every log of a thread is one that the specification allows: a body is executed
only for a call that has no result yet, with the number and the arguments of that call; once
a body did not block, or blocked while a signal waited, it is not executed again for that
call; the program gets exactly that result. -/
theorem C66_calls {cfg : Cfg} {count : Bool} {t0 : Nat} {s : St} (h : Run cfg count t0 s) :
    ∃ sp, lookAll .idle s.log = some sp ∧
      (s.ph = .free ↔ sp = .idle) := by
  obtain ⟨⟨sp, hl, hm⟩, -, -, -⟩ := h.inv
  refine ⟨sp, hl, ?_⟩
  cases hph : s.ph with
  | free => simp only [Match, hph] at hm; exact ⟨fun _ => hm.1, fun _ => rfl⟩
  | waiting n a c =>
    simp only [Match, hph] at hm
    refine ⟨nofun, ?_⟩
    rintro rfl
    rcases hm.2.2.2 with ⟨h, -⟩ | ⟨_, _, _, h, -⟩ <;> cases h

/-- The same for every part of the log: nothing that the specification forbids ever happened. -/
theorem C66_prefix {cfg : Cfg} {count : Bool} {t0 : Nat} {s : St} (h : Run cfg count t0 s)
    {l m : List Ev} (hlog : s.log = l ++ m) : ∃ sp, lookAll .idle l = some sp := by
  obtain ⟨sp, hl, -⟩ := C66_calls h
  rw [hlog, lookAll_append] at hl
  cases hq : lookAll .idle l with
  | none => rw [hq] at hl; cases hl
  | some q => exact ⟨q, rfl⟩

/-- **C66.** Every answer comes from one execution: as many bodies came to an end (or were
interrupted) as answers were given, and one more while a result is held back. -/
theorem C66_once {cfg : Cfg} {count : Bool} {t0 : Nat} {s : St} (h : Run cfg count t0 s) :
    answers s.log ≤ completed s.log + cut s.log ∧
    completed s.log + cut s.log ≤ answers s.log + 1 ∧
    (s.ph = .free → completed s.log + cut s.log = answers s.log) := by
  obtain ⟨⟨sp, hl, hm⟩, -, -, he⟩ := h.inv
  refine ⟨by omega, by split at he <;> omega, fun hph => ?_⟩
  simp only [Match, hph] at hm
  rw [hm.2.1] at he
  exact he

/-- **C66.** The counters: `num_syscalls` is the number of bodies that came to an end, and the
counter by name has one entry for every call of the program, however often it blocked. -/
theorem C66_counters {cfg : Cfg} {count : Bool} {t0 : Nat} {s : St} (h : Run cfg count t0 s) :
    s.h.num = completed s.log ∧
    (count = true → s.h.counter =
      some ((calls s.log).map fun n => (cfg.name n.toNat).getD "unknown-syscall")) := by
  obtain ⟨-, hn, hc, -⟩ := h.inv
  refine ⟨hn, fun h => ?_⟩
  rw [hc, if_pos h]

/-- **C66.** With numbers that fit a `u32` the handler never panics: not because the thread
resumes with another call than the one that blocked, not because a result is held back twice
or is a request to block. -/
theorem C66_no_panic {cfg : Cfg} {count : Bool} {t0 : Nat} {s : St} (h : Run cfg count t0 s)
    {a : Act} (ha : allowed s a) : step cfg s a ≠ some .panic := by
  obtain ⟨⟨sp, hl, hm⟩, -, -, -⟩ := h.inv
  have key : ∀ {s : St} {n : Int} {args : List Nat} {o : Orc}, hand cfg s n args o = .panic →
      0 ≤ n ∧ n < 4294967296 →
      (s.h.blockedCall = none ∨ s.h.blockedCall = some n.toNat) →
      (∀ r, s.h.pending = some r → r.isBlocked = false) → False := by
    intro s n args o h hn hb hp
    unfold hand Handler.syscall toNum at h
    rw [if_pos hn] at h
    have hb' : (s.h.blockedCall.isNone || s.h.blockedCall == some n.toNat) = true := by
      rcases hb with hb | hb <;> rw [hb] <;> simp
    simp only [R.bind_ok, hb', R.assert_true] at h
    cases hq : s.h.pending with
    | some r =>
      rw [hq] at h
      have hr := hp r hq
      simp only [hr] at h
      cases r <;> cases h
    | none =>
      rw [hq] at h
      have : ∃ x, s.h.execute cfg s.w n.toNat o = .ok x := by
        unfold Handler.execute
        simp only
        split
        · split
          · split
            · exact ⟨_, rfl⟩
            · have : (if o.body.isBlocked = true then
                if s.h.blockedCall.isNone = true then
                  { s.h with counter := s.h.counter.map (· ++ [cfg.callName n.toNat]) } else s.h
                else { (if s.h.blockedCall.isNone = true then
                  { s.h with counter := s.h.counter.map (· ++ [cfg.callName n.toNat]) } else s.h) with
                  num := (if s.h.blockedCall.isNone = true then
                  { s.h with counter := s.h.counter.map (· ++ [cfg.callName n.toNat]) } else s.h).num + 1 }).pending = none := by
                repeat' split
                all_goals exact hq
              rw [this]
              exact ⟨_, rfl⟩
          · exact ⟨_, rfl⟩
        · exact ⟨_, rfl⟩
      obtain ⟨⟨h', w', r', ran⟩, hx⟩ := this
      simp only [hx, R.bind_ok] at h
      cases r' <;> cases h
  cases a with
  | tick t => exact nofun
  | cpu u => exact nofun
  | call n args o =>
    simp only [step]
    split
    · rename_i hph
      simp only [Match, hph] at hm
      intro h
      simp only [Option.some.injEq] at h
      refine key h ha (.inl hm.2.2) ?_
      intro r hr
      simp only [hm.2.1] at hr
      cases hr
    · exact nofun
  | resume o =>
    cases hph : s.ph with
    | free => simp only [step, hph]; exact nofun
    | waiting n args c =>
      simp only [Match, hph] at hm
      obtain ⟨hn, hn', hb, hm⟩ := hm
      simp only [step, hph]
      intro h
      simp only [Option.some.injEq] at h
      refine key h ⟨hn, hn'⟩ (.inr hb) ?_
      intro r hr
      rcases hm with ⟨-, hp⟩ | ⟨r', -, -, -, hp, hr', -⟩
      · simp only [hp] at hr; cases hr
      · simp only [hp] at hr; cases hr; exact hr'

/-- **C66.** A result that is held back is handed over at the next wakeup, without executing
anything and without moving the clock. -/
theorem C66_delivered {cfg : Cfg} {count : Bool} {t0 : Nat} {s s' : St} (h : Run cfg count t0 s)
    {o : Orc} {r : Res} (hp : s.h.pending = some r)
    (hs : step cfg s (.resume o) = some (.ok s')) :
    ∃ n a c, s.ph = .waiting n a c ∧ s'.ph = .free ∧ s'.w.now = s.w.now ∧
      s'.log = s.log ++ [.wake s.w.now o.sig, .ret n a r s.w.now] := by
  obtain ⟨⟨sp, hl, hm⟩, -, -, -⟩ := h.inv
  cases hph : s.ph with
  | free => simp only [step, hph] at hs; cases hs
  | waiting n args c =>
    simp only [Match, hph] at hm
    simp only [step, hph, Option.some.injEq] at hs
    rcases hand_cases hs ⟨hm.1, hm.2.1⟩ with ⟨r', hp', -, rfl⟩ | ⟨hp', -⟩
    · simp only [hp] at hp'
      cases hp'
      exact ⟨n, args, c, rfl, rfl, rfl, by simp⟩
    · simp only [hp] at hp'; cases hp'

/-- **C66.** The clock: a call never moves it back and never beyond the time up to which the
event may run; when the program gets its answer from a running process no more latency than
the maximum is left unapplied. -/
theorem C66_time {cfg : Cfg} {count : Bool} {t0 : Nat} {s s' : St} (h : Run cfg count t0 s)
    {a : Act} {o : Orc} (ha : allowed s a)
    (ho : (∃ n args, a = .call n args o) ∨ a = .resume o) (hs : step cfg s a = some (.ok s')) :
    s.w.now ≤ s'.w.now ∧ (s'.w.now = s.w.now ∨ s'.w.now ≤ o.ahead) ∧
    (s'.ph = .free → o.running = true → s'.w.unapplied ≤ cfg.maxLat) := by
  obtain ⟨⟨sp, hl, hm⟩, -, -, -⟩ := h.inv
  rcases ho with ⟨n, args, rfl⟩ | rfl
  · simp only [step] at hs
    by_cases hph : s.ph = .free
    · rw [if_pos hph] at hs
      simp only [Match, hph] at hm
      simp only [Option.some.injEq] at hs
      rcases hand_cases hs ha with ⟨r', hp', -, rfl⟩ | ⟨-, _, _, -, -, hc⟩
      · simp only [hm.2.1] at hp'; cases hp'
      · rcases hc with ⟨c, rs, -, -, rfl⟩ | ⟨r, w, -, -, h1, h2, h3, rfl⟩ | ⟨r, t, -, -, -, -, rfl⟩
        · exact ⟨Nat.le_refl _, .inl rfl, nofun⟩
        · exact ⟨h1, h2.imp (·.symm) id, fun _ => h3⟩
        · exact ⟨Nat.le_refl _, .inl rfl, nofun⟩
    · rw [if_neg hph] at hs; cases hs
  · cases hph : s.ph with
    | free => simp only [step, hph] at hs; cases hs
    | waiting n args c =>
      simp only [Match, hph] at hm
      simp only [step, hph, Option.some.injEq] at hs
      rcases hand_cases hs ⟨hm.1, hm.2.1⟩ with ⟨r', hp', -, rfl⟩ | ⟨-, _, _, -, -, hc⟩
      · exact ⟨Nat.le_refl _, .inl rfl, fun _ _ => Nat.zero_le _⟩
      · rcases hc with ⟨c, rs, -, -, rfl⟩ | ⟨r, w, -, -, h1, h2, h3, rfl⟩ | ⟨r, t, -, -, -, -, rfl⟩
        · exact ⟨Nat.le_refl _, .inl rfl, nofun⟩
        · exact ⟨h1, h2.imp (·.symm) id, fun _ => h3⟩
        · exact ⟨Nat.le_refl _, .inl rfl, nofun⟩

end Shadow.Calls
