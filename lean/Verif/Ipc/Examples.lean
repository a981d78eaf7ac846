import Verif.Ipc.Wait

/-!
# The turns of Shadow and its managed threads: executions, and the cases in which Shadow panics or hangs (property C65)
-/
namespace Shadow.Ipc

open Shadow.Base

/-- The contract, as a function. -/
def allowedB (s : St) : Act → Bool
  | .spawn p => decide (0 < p) && s.ts.all fun th => th.proc != p
  | .resume t => match s.ts[t]? with
    | some th => th.running
    | none => false
  | .handle h _ => match s.w with
    | .handling t => match s.ts[t]? with
      | some th => match th.cur with
        | .syscall c => match h with
          | .nat c' => c'.num != sysExit && c'.num != sysClone
          | .clone _ _ => isClone c.num
          | .ans .native => c.num != sysClone
          | _ => true
        | _ => true
      | none => true
    | _ => true
  | .call _ c ctx => !isClone c.num || ctx
  | .cloneDo _ r => decide (r ≠ 0) && s.ts.all fun th => th.proc != r
  | _ => true

theorem allowed_of {s : St} {a : Act} (h : allowedB s a = true) : allowed s a := by
  cases a with
  | spawn p =>
    simp only [allowedB, Bool.and_eq_true, decide_eq_true_eq, List.all_eq_true] at h
    exact ⟨h.1, fun th hm => by have := h.2 th hm; simpa using this⟩
  | resume t =>
    simp only [allowedB] at h
    split at h
    · next th ht => exact ⟨th, ht, h⟩
    · cases h
  | handle hh mx =>
    intro t th c hw ht hc
    simp only [allowedB, hw, ht, hc] at h
    split
    · simp only [Bool.and_eq_true, bne_iff_ne] at h; exact h
    · exact h
    · simpa using h
    · trivial
  | call t c ctx =>
    intro hc
    simp only [allowedB, hc, Bool.not_true, Bool.false_or] at h; exact h
  | cloneDo t r =>
    simp only [allowedB, Bool.and_eq_true, decide_eq_true_eq, List.all_eq_true] at h
    exact ⟨h.1, fun _ th hm => by have := h.2 th hm; simpa using this⟩
  | _ => trivial

/-- Run a list of actions that keep the contract. -/
def execA (s : St) : List Act → Option St
  | [] => some s
  | a :: as =>
    if allowedB s a then
      match step s a with
      | some (.ok s') => execA s' as
      | _ => none
    else none

theorem execA_run {s s' : St} {as : List Act} (h : execA s as = some s') (hr : Run s) : Run s' := by
  induction as generalizing s with
  | nil => simp only [execA] at h; injection h with h; subst h; exact hr
  | cons a as ih =>
    simp only [execA] at h
    split at h
    · next ha =>
      split at h
      · next s1 hs => exact ih h (.step hr (allowed_of ha) hs)
      · cases h
    · cases h

/-- A state with property `P` is reached by the actions. -/
theorem reached {as : List Act} (P : St → Prop) [DecidablePred P] (h : (execA {} as).any (fun s => decide (P s)) = true) : ∃ s, Run s ∧ P s := by
  cases e : execA {} as with
  | none => rw [e] at h; cases h
  | some s => rw [e] at h; exact ⟨s, execA_run e .init, by simpa using h⟩

/-! ## An execution with most of what can happen -/

def cRead : Call := ⟨0, [3, 4096, 10]⟩
def cPause : Call := ⟨34, []⟩
def cFork : Call := ⟨57, []⟩
def cClone : Call := ⟨56, [17]⟩
def cExit : Call := ⟨60, [7]⟩
def cGetpid : Call := ⟨39, []⟩
def cMmap : Call := ⟨9, [0, 4096]⟩

/-- A process starts and its first thread is resumed. -/
def start (p : Int) : List Act := [.spawn p, .sendStart 0, .startRecv, .resume 0, .handle .go 100, .shimRecv 0 false]

/-- It reads: the call blocks, is made again, asks for a native call, and returns 10. -/
def blockRead : List Act :=
  [.call 0 cRead false, .recv, .handle (.ans .block) 100, .resume 0, .handle (.nat cMmap) 100, .shimRecv 0 false, .natDone 0 4096, .recv,
    .handle (.ans (.done 10 false)) 100, .shimRecv 0 false, .takeLock 0, .sigDone 0]

/-- It pauses and is interrupted by a signal whose handler makes a call; the handler has `SA_RESTART`, so the pause is made again. -/
def interrupted : List Act :=
  [.call 0 cPause false, .recv, .handle (.ans (.done eintr true)) 100, .shimRecv 0 false, .takeLock 0, .sigHandler 0 true,
    .call 0 cGetpid false, .recv, .handle (.ans (.done 5 false)) 100, .shimRecv 0 false, .takeLock 0, .sigDone 0,
    .handlerRet 0, .takeLock 0, .sigDone 0, .recv, .handle (.ans (.done 0 false)) 200, .shimRecv 0 false, .takeLock 0, .sigDone 0]

/-- It asks the shim for the time until the shim has to advance the clock. -/
def times : List Act := [.localBegin 0, .localEnd 0 30 100, .localBegin 0, .localEnd 0 80 100]

/-- It forks; the copy and then it go on. -/
def forks : List Act :=
  [.call 0 cFork true, .recv, .handle (.clone false false) 300, .shimRecv 0 false, .cloneDo 0 900, .cloneSend 0, .recv, .sendStart 1, .startRecv,
    .handle (.ans (.done 6 false)) 300, .shimRecv 0 false, .takeLock 0, .sigDone 0,
    .call 0 cPause false, .recv, .handle (.ans .block) 300,
    .resume 1, .handle .go 300, .shimRecv 1 false, .recv, .handle .go 300, .shimRecv 1 false, .takeLock 1, .sigDone 1]

/-- The copy leaves. -/
def leaves : List Act := [.call 1 cExit false, .recv, .handle .go 300, .shimRecv 1 false, .natDone 1 0, .gone]

def session : List Act := start 800 ++ blockRead ++ interrupted ++ times ++ forks ++ leaves

/-- All of it is possible under the contract, the clock has advanced to 110, and the calls are seen as they should be. -/
theorem C65_example : ∃ s, Run s ∧ s.w = .idle ∧ s.now = 110 ∧ s.ts.map Thread.pc = [.wait cPause false, .dead] ∧
    s.ts.map Thread.ret = [none, some 7] ∧
    s.ts.map Thread.log =
      [[.ask cRead, .handled cRead .block, .handled cRead (.done 10 false), .ret cRead 10,
        .ask cPause, .handled cPause (.done eintr true), .handler true, .ask cGetpid, .handled cGetpid (.done 5 false), .ret cGetpid 5, .again cPause,
        .handled cPause (.done 0 false), .ret cPause 0,
        .ask cFork, .handled cFork (.done 6 false), .ret cFork 6, .ask cPause, .handled cPause .block],
       [.ask cRead, .handled cRead .block, .handled cRead (.done 10 false), .ret cRead 10,
        .ask cPause, .handled cPause (.done eintr true), .handler true, .ask cGetpid, .handled cGetpid (.done 5 false), .ret cGetpid 5, .again cPause,
        .handled cPause (.done 0 false), .ret cPause 0,
        .ask cFork, .forked, .forkDone, .ret cFork 0, .ask cExit, .handled cExit .native]] :=
  reached (as := session) (fun s => s.w = .idle ∧ s.now = 110 ∧ s.ts.map Thread.pc = [.wait cPause false, .dead] ∧
    s.ts.map Thread.ret = [none, some 7] ∧ s.ts.map Thread.log = _) (by decide +kernel)

/-- A thread that runs, and one that has the lock, while Shadow waits for it. -/
theorem C65_serial_example : (∃ s, Run s ∧ s.ts.map Thread.pc = [.app] ∧ s.w = .cont 0 .resume) ∧
    ∃ s, Run s ∧ s.ts.map Thread.pc = [.inShim] ∧ s.lock = .thread 0 :=
  ⟨reached (as := start 800) _ (by decide +kernel), reached (as := start 800 ++ [.localBegin 0]) _ (by decide +kernel)⟩

/-- Two threads, both parked, while Shadow handles the call of the first. -/
theorem C65_parked_example : ∃ s, Run s ∧ s.w = .handling 0 ∧ s.ts.map Thread.pc = [.wait cClone true, .waitStart .jump] ∧
    s.ts.map Thread.running = [true, true] :=
  reached (as := start 800 ++ [.call 0 cClone true, .recv, .handle (.clone true true) 100, .shimRecv 0 false, .cloneDo 0 801, .sendStart 1,
    .cloneSend 0, .recv, .startRecv]) _ (by decide +kernel)

/-! ## Findings -/

/-- A process that dies before it has started (its program cannot be executed, say) makes Shadow panic: `receive().unwrap()` gets an error
from the closed channel, and the code behind it that means to return `EPERM` (managed_thread.rs:140-165) is never reached, because no thread
sends `ProcessDeath`. -/
theorem C65_finding_spawn : ∃ s, Run s ∧ s.ts.map Thread.pc = [.dead] ∧ s.w = .startMain 0 ∧ step s .startRecv = some .panic :=
  reached (as := [.spawn 800, .die 800, .close 800]) _ (by decide +kernel)

/-- A process that is killed while a call is made natively in it for Shadow makes Shadow panic. -/
theorem C65_finding_native : ∃ s, Run s ∧ s.ts.map Thread.pc = [.dead] ∧ s.w = .cont 0 .nat ∧ step s .recv = some .panic :=
  reached (as := start 800 ++ [.call 0 cRead false, .recv, .handle (.nat cMmap) 100, .shimRecv 0 false, .die 800, .close 800]) _
    (by decide +kernel)

/-- A forked process that dies before it says that it has started makes Shadow wait for ever: nobody watches for its end yet. -/
theorem C65_finding_child : ∃ s, Run s ∧ HungChild s ∧ s.w = .startChild 0 1 900 ∧ ∀ s', Reach s s' → s'.w = .startChild 0 1 900 := by
  obtain ⟨s, hr, h⟩ := reached (as := start 800 ++ [.call 0 cFork true, .recv, .handle (.clone false false) 300, .shimRecv 0 false, .cloneDo 0 900,
    .cloneSend 0, .recv, .die 900]) (fun s => s.w = .startChild 0 1 900 ∧ (s.ts[1]?.map fun (ch : Thread) =>
      decide (ch.pc = .dead ∧ ch.toShadow.msg = none ∧ ch.toShadow.closed = false ∧ ch.registered = false)) = some true) (by decide +kernel)
  obtain ⟨ch, h1, h2⟩ := Option.map_eq_some_iff.1 h.2
  simp only [decide_eq_true_eq] at h2
  have hh : HungChild s := ⟨0, 1, 900, ch, h.1, h1, h2⟩
  exact ⟨s, hr, hh, h.1, fun s' hs => ((C65_hung hr hs).2 hh).2.trans h.1⟩

/-- A process that is killed while one of its threads is inside the shim with the lock of the host's shared memory makes Shadow wait for ever
for the lock. -/
theorem C65_finding_lock : ∃ s, Run s ∧ HungLock s ∧ s.w = .cont 0 .resume ∧ ∀ s', Reach s s' → s'.w = .cont 0 .resume := by
  obtain ⟨s, hr, h⟩ := reached (as := start 800 ++ [.localBegin 0, .die 800, .close 800]) (fun s => s.w = .cont 0 .resume ∧ s.lock = .thread 0 ∧
    (s.ts[0]?.map Thread.pc) = some .dead) (by decide +kernel)
  obtain ⟨th, h1, h2⟩ := Option.map_eq_some_iff.1 h.2.2
  have hh : HungLock s := ⟨0, th, .resume, h.1, h1, h2, h.2.1⟩
  exact ⟨s, hr, hh, h.1, fun s' hs => ((C65_hung hr hs).1 hh).2.trans h.1⟩

/-- A program that makes the clone call through libc's `syscall` makes the shim panic: that way the shim has no context
(shim_api_syscall.c:24-30 hands a null pointer on), and `ctx.as_mut().unwrap()` fails. -/
theorem C65_finding_clone_wrapper :
    exec {} (start 800 ++ [.call 0 cClone false, .recv, .handle (.clone true true) 100, .shimRecv 0 false]) = some .panic := by decide +kernel

end Shadow.Ipc
