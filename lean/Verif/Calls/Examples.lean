import Verif.Calls.Props

/-! # C66: concrete runs that meet the hypotheses, and what the code does not guarantee -/

namespace Shadow.Calls
open Shadow.Base

/-- The contract as a computation. -/
def allowedB (s : St) : Act → Bool
  | .call number _ _ => decide (0 ≤ number) && decide (number < 4294967296)
  | .resume o =>
    match s.ph with
    | .waiting _ _ c => c.timeout.any (fun t => decide (t ≤ s.w.now)) || o.sig || c.trigger.isSome
    | .free => true
  | .tick t => decide (s.w.now ≤ t)
  | .cpu _ => true

theorem allowed_of {s : St} {a : Act} (h : allowedB s a = true) : allowed s a := by
  cases a with
  | call n args o => simpa [allowedB, allowed] using h
  | tick t => simpa [allowedB, allowed] using h
  | cpu u => trivial
  | resume o =>
    cases hph : s.ph with
    | free => simp only [allowed, hph]
    | waiting n args c =>
      simp only [allowed, hph]
      simp only [allowedB, hph, Bool.or_eq_true, Option.any_eq_true, decide_eq_true_eq] at h
      rcases h with (h | h) | h
      · exact .inl h
      · exact .inr (.inl h)
      · exact .inr (.inr (by intro e; rw [e] at h; cases h))

/-- Run a list of steps. -/
def execA (cfg : Cfg) (s : St) : List Act → Option St
  | [] => some s
  | a :: as =>
    if allowedB s a then
      match step cfg s a with
      | some (.ok s') => execA cfg s' as
      | _ => none
    else none

theorem execA_run {cfg : Cfg} {count : Bool} {t0 : Nat} {as : List Act} {s s' : St}
    (h : Run cfg count t0 s) (he : execA cfg s as = some s') : Run cfg count t0 s' := by
  induction as generalizing s with
  | nil => cases he; exact h
  | cons a as ih =>
    simp only [execA] at he
    split at he
    · rename_i ha
      split at he
      · rename_i s1 hs
        exact ih (h.step (allowed_of ha) hs) he
      · cases he
    · cases he

/-- A host with 1000 ns of latency for every call and at most 1500 ns unapplied. -/
def cfg0 : Cfg :=
  { latOn := true, lat := 1000, maxLat := 1500, shadowCall := fun n => decide (1000 ≤ n)
    name := fun n => if n = 0 then some "read" else if n = 1 then some "write" else none }

def start0 : St := { h := { counter := some [] }, w := { now := 100 } }

theorem reached {as : List Act} {P : St → Prop}
    (h : ∃ s, execA cfg0 start0 as = some s ∧ P s) : ∃ s, Run cfg0 true 100 s ∧ P s := by
  obtain ⟨s, he, hp⟩ := h
  exact ⟨s, execA_run .init he, hp⟩

/-- A read that blocks twice and then gets 7 bytes, a write that gets its result 2000 ns
later because other events come first, and an unknown call. -/
def story : List Act :=
  [.call 0 [3] { body := .blocked { trigger := some 9 } true },
   .tick 200, .resume { body := .blocked { trigger := some 9 } true },
   .tick 300, .resume { body := .ok 7 },
   .call 1 [4, 5] { body := .ok 5, ahead := 2299 },
   .tick 2300, .resume { body := .native },
   .call 999 [] { body := .failed 38 false, ahead := 5000 }]

theorem C66_example : ∃ s, Run cfg0 true 100 s ∧
    s.log = [.call 0 [3], .run 0 [3] (.blocked { trigger := some 9 } true) false,
      .wake 200 false, .run 0 [3] (.blocked { trigger := some 9 } true) false,
      .wake 300 false, .run 0 [3] (.ok 7) false, .ret 0 [3] (.ok 7) 300,
      .call 1 [4, 5], .run 1 [4, 5] (.ok 5) false, .delay 2300,
      .wake 2300 false, .ret 1 [4, 5] (.ok 5) 2300,
      .call 999 [], .run 999 [] (.failed 38 false) false, .ret 999 [] (.failed 38 false) 2300] ∧
    s.h.num = 3 ∧ s.h.counter = some ["read", "write", "unknown-syscall"] :=
  reached (as := story) (P := fun s => _ ∧ s.h.num = 3 ∧ s.h.counter = some _)
    ⟨_, rfl, by decide +kernel, by decide +kernel, by decide +kernel⟩

/-- The hypotheses of `C66_delivered`: a result is held back and the wakeup is allowed. -/
theorem C66_delivered_example : ∃ s, Run cfg0 true 100 s ∧ s.h.pending = some (.ok 5) ∧
    allowed s (.resume { body := .native }) :=
  reached (as := story.take 7) (P := fun s => s.h.pending = some (.ok 5) ∧
      allowed s (.resume { body := .native }))
    ⟨_, rfl, by decide +kernel, allowed_of (by decide +kernel)⟩

/-- An interrupted call: the body blocks while a signal waits, the program gets EINTR and is
told that the call may be restarted. -/
theorem C66_interrupted_example : ∃ s, Run cfg0 true 100 s ∧
    s.log = [.call 0 [3], .run 0 [3] (.blocked { trigger := some 9 } true) false, .wake 200 true,
      .run 0 [3] (.blocked { trigger := some 9 } true) true, .ret 0 [3] (.failed 4 true) 200] :=
  reached (as := [.call 0 [3] { body := .blocked { trigger := some 9 } true }, .tick 200,
      .resume { body := .blocked { trigger := some 9 } true, sig := true }])
    (P := fun s => s.log = _) ⟨_, rfl, by decide +kernel⟩

/-- The specification rejects what must not happen: executing a finished call again, answering
with another result, answering before the time without a signal. -/
theorem C66_spec_example :
    lookAll .idle [.call 1 [], .run 1 [] (.ok 5) false, .run 1 [] (.ok 5) false] = none ∧
    lookAll .idle [.call 1 [], .run 1 [] (.ok 5) false, .ret 1 [] (.ok 4) 0] = none ∧
    lookAll .idle [.call 1 [], .run 1 [] (.ok 5) false, .delay 9, .wake 8 false,
      .ret 1 [] (.ok 5) 8] = none ∧
    lookAll .idle [.call 1 [2], .run 1 [3] (.ok 5) false] = none := by decide

/-- **Finding.** A number that does not fit a `u32`, such as that of `syscall(-1)`, makes
Shadow panic (Linux answers ENOSYS), in every state in which the program can make a call. -/
theorem C66_finding_number {cfg : Cfg} {s : St} (hph : s.ph = .free) {n : Int}
    (hn : n < 0 ∨ 4294967296 ≤ n) (args : List Nat) (o : Orc) :
    step cfg s (.call n args o) = some .panic := by
  have : ¬ (0 ≤ n ∧ n < 4294967296) := by omega
  simp only [step, hph, if_true, hand, Handler.syscall, toNum, if_neg this]
  rfl

theorem C66_finding_number_example : step cfg0 start0 (.call (-1) [] { body := .ok 0 }) = some .panic :=
  C66_finding_number rfl (.inl (by decide)) _ _

/-- **Finding.** A signal ends the delay of a result: the program goes on before the time
that its calls were to take, and that time is never applied. -/
theorem C66_finding_signal : ∃ s, Run cfg0 true 100 s ∧ ∃ l n a r d t, t < d ∧
    s.log = l ++ [.delay d, .wake t true, .ret n a r t] ∧ s.w.now = t ∧ s.w.unapplied = 0 :=
  reached (as := [.cpu 1000, .call 0 [3] { body := .ok 7, ahead := 300 }, .tick 200,
      .resume { body := .ok 7, sig := true }])
    ⟨_, rfl, [.call 0 [3], .run 0 [3] (.ok 7) false], 0, [3], .ok 7, 2100, 200, by decide,
      by decide +kernel, by decide +kernel, by decide +kernel⟩

/-- **Finding.** `num_syscalls`, logged as the number of calls that were handled, does not
count calls that were interrupted. -/
theorem C66_finding_count : ∃ s, Run cfg0 true 100 s ∧ answers s.log = 1 ∧ s.ph = .free ∧
    s.h.num = 0 :=
  reached (as := [.call 0 [3] { body := .blocked { trigger := some 9 } true, sig := true }])
    (P := fun s => answers s.log = 1 ∧ s.ph = .free ∧ s.h.num = 0)
    ⟨_, rfl, by decide +kernel, by decide +kernel, by decide +kernel⟩

end Shadow.Calls
