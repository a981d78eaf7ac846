import Verif.Poll.Props
/-!
# C72: executions
-/
namespace Shadow.Poll

open Shadow.Base

/-- The contract, computed: the status of regular files stays as it is here. -/
def allowedB (E : Env) (s : St) : Act → Bool
  | .file o f => (!(s.files o).closed || f.closed) && !E.reg o
  | .tick d => decide (s.now + d < noTime) &&
      (match s.wait with
       | some w => !w.sched && (match w.deadline with
          | some x => decide (s.now + d ≤ x)
          | none => true)
       | none => true)
  | _ => true

theorem allowed_of {E : Env} {s : St} {a : Act} (h : allowedB E s a = true) : allowed E s a := by
  cases a with
  | file o f =>
    simp only [allowedB, Bool.and_eq_true, Bool.or_eq_true, Bool.not_eq_true'] at h
    refine ⟨fun hc => ?_, fun hr => ?_⟩
    · rcases h.1 with h1 | h1
      · rw [hc] at h1; cases h1
      · exact h1
    · rw [hr] at h; exact absurd h.2 (by decide)
  | tick d =>
    simp only [allowedB, Bool.and_eq_true, decide_eq_true_eq] at h
    refine ⟨h.1, fun w hw => ?_⟩
    rw [hw] at h
    simp only [Bool.and_eq_true, Bool.not_eq_true'] at h
    refine ⟨h.2.1, fun x hx => ?_⟩
    rw [hx] at h
    simpa using h.2.2
  | _ => trivial

def execA (E : Env) (s : St) : List Act → Option St
  | [] => some s
  | a :: as =>
    if allowedB E s a then
      match step E s a with
      | some (.ok s') => execA E s' as
      | _ => none
    else none

theorem execA_run {E : Env} {as : List Act} {s s' : St} (h : Run E s) (he : execA E s as = some s') : Run E s' := by
  induction as generalizing s with
  | nil => cases he; exact h
  | cons a as ih =>
    simp only [execA] at he
    split at he
    · rename_i ha
      split at he
      · rename_i s1 h1
        exact ih (.step h (allowed_of ha) h1) he
      · cases he
    · cases he

/-- File 9 is a regular file, file 8 one whose `poll` fails; the others are sockets and pipes. -/
def E0 : Env := { reg := fun o => o == 9 || o == 8, os := fun o ev => if o = 9 then some (ev &&& 5) else none }

/-- Descriptors 3 and 4 are two pipes, 5 the regular file, 6 the one that fails. -/
def s0 : St :=
  { now := 1000, files := fun _ => { active := true, readable := false, writable := false, closed := false },
    tbl := fun i => if i = 3 then some 0 else if i = 4 then some 1 else if i = 5 then some 9 else if i = 6 then some 8 else none,
    sig := false, ep := {}, wait := none, log := [] }

theorem run0 : Run E0 s0 := .init ⟨rfl, rfl, rfl, by decide, fun _ _ => ⟨rfl, rfl⟩⟩

/-- An allowed execution leads to a state with `p`. -/
def reachedB (as : List Act) (p : St → Bool) : Bool := (execA E0 s0 as).any p

theorem reached {as : List Act} {p : St → Bool} (h : reachedB as p = true) : ∃ s, Run E0 s ∧ p s = true := by
  unfold reachedB at h
  cases he : execA E0 s0 as with
  | none => rw [he] at h; cases h
  | some s => rw [he] at h; exact ⟨s, execA_run run0 he, h⟩

def pin (fd : Int) : Pfd := { fd, events := POLLIN }
def pout (fd : Int) : Pfd := { fd, events := POLLOUT }
def inOut (fd : Int) : Pfd := { fd, events := 5 }

def pipe (r w : Bool) : FileSt := { active := true, readable := r, writable := w, closed := false }
def shut : FileSt := { active := false, readable := false, writable := false, closed := true }

/-- The last return: the time, the result and the bits. -/
def last (s : St) : Option (Nat × Int × List Nat) := s.log.getLast?.map fun r => (r.time, r.res, r.out.map (·.revents.toNat))

/-! ## The claims at work -/

/-- **C72 at work.**  A call waits for two pipes; the second becomes readable after 40 ns, the call returns with it at that moment. -/
example : ∃ s, Run E0 s ∧ last s = some (1040, 1, [0, 1]) :=
  (reached (as := [.call [pin 3, inOut 4] none, .tick 40, .file 1 (pipe true false), .wake])
    (p := fun s => last s == some (1040, 1, [0, 1])) (by decide +kernel)).imp fun _ h => ⟨h.1, by simpa using h.2⟩

/-- **C72 at work.**  Nothing happens: it returns zero when 70 ns have passed, although a pipe was readable for a while in between and an event that nobody asked for came. -/
example : ∃ s, Run E0 s ∧ last s = some (1070, 0, [0]) :=
  (reached (as := [.call [pin 3] (some ⟨0, 70⟩), .tick 20, .file 0 (pipe false true), .file 0 (pipe true true),
      .file 0 (pipe false true), .wake, .tick 50, .wake])
    (p := fun s => last s == some (1070, 0, [0])) (by decide +kernel)).imp fun _ h => ⟨h.1, by simpa using h.2⟩

/-- **C72 at work.**  A signal ends the call. -/
example : ∃ s, Run E0 s ∧ last s = some (1005, -4, [0]) :=
  (reached (as := [.call [pin 3] (some ⟨0, 70⟩), .tick 5, .signal, .wake])
    (p := fun s => last s == some (1005, -4, [0])) (by decide +kernel)).imp fun _ h => ⟨h.1, by simpa using h.2⟩

/-- **C72 at work.**  A descriptor that is not open, a negative one, the regular file and the one that fails are answered at once. -/
example : ∃ s, Run E0 s ∧ last s = some (1000, 3, [32, 0, 5, 8]) :=
  (reached (as := [.call [pin 77, pin (-1), inOut 5, pin 6] none])
    (p := fun s => last s == some (1000, 3, [32, 0, 5, 8])) (by decide +kernel)).imp fun _ h => ⟨h.1, by simpa using h.2⟩

/-- **C72_wake: not vacuous.**  A call that waits for two different descriptors, neither closed, while one of them has something to say. -/
example : ∃ s, Run E0 s ∧ (s.wait.any fun w => !w.moved && w.fds == [pin 3, pout 4] && w.sched) = true ∧
    (s.files 1).writable = true ∧ (s.files 1).closed = false :=
  (reached (as := [.call [pin 3, pout 4] (some ⟨0, 70⟩), .tick 20, .file 1 (pipe false true)])
    (p := fun s => (s.wait.any fun w => !w.moved && w.fds == [pin 3, pout 4] && w.sched) && (s.files 1).writable && !(s.files 1).closed)
    (by decide +kernel)).imp fun _ h => ⟨h.1, by simpa [and_assoc] using h.2⟩

example : Distinct [pin 3, pout 4] := by unfold Distinct; decide

/-- **C72_time: not vacuous.** -/
example : ∃ s, Run E0 s ∧ (s.wait.any fun w => !w.moved && !w.taken && w.timeout == some ⟨2, 70⟩ && w.start == 1000) = true ∧
    s.now = 1000001000 :=
  (reached (as := [.call [pin 3, pout 4] (some ⟨2, 70⟩), .tick 1000000000])
    (p := fun s => (s.wait.any fun w => !w.moved && !w.taken && w.timeout == some ⟨2, 70⟩ && w.start == 1000) && s.now == 1000001000)
    (by decide +kernel)).imp fun _ h => ⟨h.1, by simpa [and_assoc] using h.2⟩

example : Honest E0 := by
  intro o ev v h
  simp only [E0] at h
  split at h
  · cases h
    simp only [BitVec.getLsbD_and]
    exact ⟨fun h => (Bool.and_eq_true _ _ ▸ h).1, fun h => (Bool.and_eq_true _ _ ▸ h).1, by rw [show BitVec.getLsbD (5 : Bits) 5 = false by decide]; simp⟩
  · cases h

/-- **C72_select at work.**  Of 3, 4 and 5 for reading and 4 for writing, only 4 and 5 can be read: the result is 2. -/
example : ∃ s, Run E0 s ∧ (s.log.getLast?.map fun q =>
    let S := selectRet q.res q.out (fun i => i == 3 || i == 4 || i == 5) (fun i => i == 4) (fun i => i == 3)
    (S.res, (List.range 8).filter S.r, (List.range 8).filter S.w, (List.range 8).filter S.x)) = some (2, [4, 5], [], []) :=
  (reached (as := [.file 1 (pipe true false),
      .call (selectPfds 6 (fun i => i == 3 || i == 4 || i == 5) (fun i => i == 4) (fun i => i == 3)) none])
    (p := fun s => (s.log.getLast?.map fun q =>
      let S := selectRet q.res q.out (fun i => i == 3 || i == 4 || i == 5) (fun i => i == 4) (fun i => i == 3)
      (S.res, (List.range 8).filter S.r, (List.range 8).filter S.w, (List.range 8).filter S.x)) == some (2, [4, 5], [], []))
    (by decide +kernel)).imp fun _ h => ⟨h.1, by simpa using h.2⟩

/-! ## Findings -/

/-- **Finding (C72): a descriptor that is listed twice.**  One entry asks to read and another to write the same pipe.  Only the first is
watched: the pipe is writable, no wakeup is scheduled, and time passes. -/
theorem C72_twice_deaf : ∃ s, Run E0 s ∧ (s.files 0).writable = true ∧ (s.files 0).closed = false ∧ 2000 ≤ s.now ∧
    (s.wait.any fun w => w.fds == [pin 3, pout 3] && !w.sched && !w.moved && w.deadline.isNone) = true :=
  (reached (as := [.call [pin 3, pout 3] none, .file 0 (pipe false true), .tick 1000])
    (p := fun s => (s.files 0).writable && !(s.files 0).closed && decide (2000 ≤ s.now) &&
      (s.wait.any fun w => w.fds == [pin 3, pout 3] && !w.sched && !w.moved && w.deadline.isNone))
    (by decide +kernel)).imp fun _ h => ⟨h.1, by simpa [and_assoc] using h.2⟩

/-- **Finding (C72): a file that is closed.**  A file closed during the call is no longer watched and wakes nobody, although the same call made
now would return `POLLNVAL`. -/
theorem C72_closed_deaf : ∃ s, Run E0 s ∧ (s.files 0).closed = true ∧ 2000 ≤ s.now ∧
    (s.wait.any fun w => w.fds == [pin 3] && !w.sched && !w.moved && w.deadline.isNone) = true ∧
    (check E0 s (pin 3)).revents = POLLNVAL :=
  (reached (as := [.call [pin 3] none, .file 0 shut, .tick 1000])
    (p := fun s => (s.files 0).closed && decide (2000 ≤ s.now) &&
      (s.wait.any fun w => w.fds == [pin 3] && !w.sched && !w.moved && w.deadline.isNone) &&
      (check E0 s (pin 3)).revents == POLLNVAL)
    (by decide +kernel)).imp fun _ h => ⟨h.1, by simpa [and_assoc] using h.2⟩

/-- **Finding (C72): a file that is no longer active.**  A file that is neither active nor closed, as a connection
in state CLOSED (`tcp.c:695-699`), says nothing at all, not even that it hung up, whatever its status: a call waits for it. -/
theorem C72_inactive_silent : ∃ s, Run E0 s ∧ (s.files 0).readable = true ∧ (s.files 0).active = false ∧ 2000 ≤ s.now ∧
    (s.wait.any fun w => w.fds == [inOut 3] && !w.sched && !w.moved && w.deadline.isNone) = true :=
  (reached (as := [.file 0 { active := false, readable := true, writable := true, closed := false }, .call [inOut 3] none, .tick 1000])
    (p := fun s => (s.files 0).readable && !(s.files 0).active && decide (2000 ≤ s.now) &&
      (s.wait.any fun w => w.fds == [inOut 3] && !w.sched && !w.moved && w.deadline.isNone))
    (by decide +kernel)).imp fun _ h => ⟨h.1, by simpa [and_assoc] using h.2⟩

/-- **Finding (C72): a longer wait.**  Another thread replaces the descriptor of a call with a timeout of 70 ns.  An event of the file that was
there wakes the call, it finds nothing, and waits for another 70 ns: it returns zero after 130. -/
theorem C72_longer : ∃ s, Run E0 s ∧ last s = some (1130, 0, [0]) ∧
    (s.log.any fun r => r.start == 1000 && r.timeout == some ⟨0, 70⟩) = true :=
  (reached (as := [.call [pin 3] (some ⟨0, 70⟩), .tick 60, .fd 3 (some 1), .file 0 (pipe true false), .wake, .tick 70, .wake])
    (p := fun s => last s == some (1130, 0, [0]) && (s.log.any fun r => r.start == 1000 && r.timeout == some ⟨0, 70⟩))
    (by decide +kernel)).imp fun _ h => ⟨h.1, by simpa [and_assoc] using h.2⟩

/-- **Finding (C72): a longer wait after a signal.**  The epoll of the thread keeps its bit when it is reset after a call, so a call that watches
no file waits with the bit set.  A signal that another thread takes first wakes it, it does not see that nothing happened, and its timeout
begins again: a sleep of 70 ns takes 130. -/
theorem C72_stale_bit : ∃ s, Run E0 s ∧ last s = some (1130, 0, []) ∧
    (s.log.any fun r => r.start == 1000 && r.timeout == some ⟨0, 70⟩ && r.fds.isEmpty) = true :=
  (reached (as := [.call [pin 3] none, .file 0 (pipe true false), .wake, .call [] (some ⟨0, 70⟩), .tick 60, .signal, .take, .wake,
      .tick 70, .wake])
    (p := fun s => last s == some (1130, 0, []) &&
      (s.log.any fun r => r.start == 1000 && r.timeout == some ⟨0, 70⟩ && r.fds.isEmpty))
    (by decide +kernel)).imp fun _ h => ⟨h.1, by simpa [and_assoc] using h.2⟩

/-- **Finding (C72): a timeout of six centuries.**  Seconds and nanoseconds that pass the checks of `ppoll` and `select` but not 64 bits of
nanoseconds set the timer into the past, which stops the simulation. -/
theorem C72_wrap_panics : ∃ s, Run E0 s ∧ checkTimeout (some ⟨18446744073, 709551000⟩) = true ∧
    step E0 s (.call [pin 3] (some ⟨18446744073, 709551000⟩)) = some .panic :=
  ⟨s0, run0, by decide, by
    have : (step E0 s0 (.call [pin 3] (some ⟨18446744073, 709551000⟩))).any (fun r => match r with | .panic => true | _ => false) = true := by
      decide +kernel
    generalize step E0 s0 (.call [pin 3] (some ⟨18446744073, 709551000⟩)) = y at this ⊢
    match y, this with
    | some .panic, _ => rfl⟩

/-- **Finding (C72): `select` returns zero at once.**  A regular file whose `poll` fails ends the call, but the error is in none of the sets: zero
without the timeout having passed. -/
theorem C72_select_zero : ∃ s, Run E0 s ∧ (s.log.any fun q => q.time == q.start && q.timeout == none &&
    (selectRet q.res q.out (fun i => i == 6) (fun _ => false) (fun _ => false)).res == 0) = true :=
  (reached (as := [.call (selectPfds 7 (fun i => i == 6) (fun _ => false) (fun _ => false)) none])
    (p := fun s => s.log.any fun q => q.time == q.start && q.timeout == none &&
      (selectRet q.res q.out (fun i => i == 6) (fun _ => false) (fun _ => false)).res == 0)
    (by decide +kernel))

end Shadow.Poll
