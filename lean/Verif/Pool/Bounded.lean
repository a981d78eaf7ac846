import Verif.Latch.CountDown

/-!
# Model of the thread pool of the thread-per-host scheduler

Sources: `/repo/src/lib/scheduler/src/pools/bounded.rs`, `logical_processor.rs`, `sync/thread_parking.rs`.

There are `n` threads and usually fewer logical processors.  Each logical processor has a queue of the threads that have not yet run the task and one of
those that have been started; a thread that is done with the task starts the next one of its processor, or one of another processor if there is none.

Every access to a queue, to `logical_processor_idx`, to the flag of a parker and to its token is one step, and so are the steps of the model of the end latch.
A write to the task or to the logical processors (an `AtomicRefCell` each) is two steps, one that begins it and one that ends it.  `std::thread::park`
blocks until there is a token, takes it, and may return for no reason.

Thread `i` has counter `i + 1` of the end latch; counter 0 is the one that `new` clones.  The main thread has waiter 0.  Tasks are known by numbers.

Simplifications: accesses are sequentially consistent; setting the affinity of a thread fails only if the thread has ended; the checks of
`logical_processor_idx` (line 434) are those of a debug build, the checks of thread ids in debug builds are left out (each thread
has a parker of its own).
-/
namespace Shadow.Pool.Bounded

open Shadow.Base Shadow.Latch

def upd {α β : Type} [DecidableEq α] (f : α → β) (i : α) (x : β) : α → β := fun j => if j = i then x else f j

/-- bounded.rs:423-447, `start_next_thread`, for a processor that the caller knows. -/
inductive Sub
  /-- logical_processor.rs:34-42: before it takes a thread from the `k`-th queue after its own -/
  | seek (k : Nat)
  /-- logical_processor.rs:45: it took thread `w` from the queue of processor `q` -/
  | push (w q : Nat)
  /-- bounded.rs:434-442 -/
  | assign (w q : Nat)
  /-- thread_parking.rs:129 -/
  | flag (w : Nat)
  /-- thread_parking.rs:130 -/
  | unpark (w : Nat)
deriving Repr, DecidableEq

/-- Why a thread starts the next one: the task returned, it panicked, or there is none. -/
inductive Why
  | ret
  | crash
  | quit
deriving Repr, DecidableEq

/-- Where a thread is in `work_loop`; `p` is its logical processor. -/
inductive TPc
  /-- thread_parking.rs:157-161: before it looks at its flag -/
  | check
  /-- thread_parking.rs:183: in `std::thread::park` -/
  | park
  /-- bounded.rs:380: before the borrow of the logical processors -/
  | got
  /-- bounded.rs:383: before it reads its processor -/
  | load
  /-- bounded.rs:405: before the borrow of the task -/
  | look (p : Nat)
  /-- bounded.rs:406: in the task -/
  | running (p : Nat)
  /-- bounded.rs:346-352: in `start_next_thread` -/
  | starting (why : Why) (p : Nat) (sub : Sub)
  /-- bounded.rs:415: before `end_counter.count_down()` -/
  | counting
  /-- in it, before the notification -/
  | notifying
  /-- bounded.rs:331-333: the task panicked -/
  | poisoning
  /-- before the end counter is dropped -/
  | exiting
  | gone
deriving Repr, DecidableEq

/-- What a call of `scope` came to. -/
inductive Res
  | done
  /-- it panics at bounded.rs:205-211 -/
  | refused
  /-- it panics at bounded.rs:263 -/
  | crashed
deriving Repr, DecidableEq

/-- Where the main thread is. -/
inductive MPc
  /-- bounded.rs:73-140: in `new` -/
  | making
  /-- outside of the functions of the pool; `res` tells how the last `scope` ended -/
  | idle (res : Option Res)
  /-- bounded.rs:221: in the closure of `scope`, before `run` -/
  | scope
  /-- bounded.rs:288: writing the task -/
  | setting
  /-- bounded.rs:292-298: in `start_next_thread` for processor `k` -/
  | starting (k : Nat) (sub : Sub)
  /-- in the closure of `scope`, after `run` -/
  | ran
  /-- bounded.rs:240: the scope ends -/
  | ending
  /-- bounded.rs:242: blocked on the end latch -/
  | waiting
  /-- bounded.rs:245: before the write -/
  | passed
  /-- writing the task -/
  | clearing
  /-- bounded.rs:248-252: changing the logical processors -/
  | resetting
  /-- bounded.rs:256-264 -/
  | checking
  /-- bounded.rs:168-170: before it sets the flag of thread `k`, or its token; `check` is `check_for_errors` -/
  | unparking (check : Bool) (k : Nat) (half : Bool)
  /-- bounded.rs:172: before it joins thread `k` -/
  | joining (check : Bool) (k : Nat)
  | over
deriving Repr, DecidableEq

/-- bounded.rs:39-68, logical_processor.rs:5-7 and 73-79.  `ran i` lists the tasks that thread `i` ran, `crashed i` tells that one of them panicked, `issued` lists the tasks that
`run` was called with; `aff i` is the processor that thread `i` is pinned to. -/
structure St where
  main : MPc
  n : Nat
  cpus : List (Option Nat)
  ready : Nat → List Nat
  done : Nat → List Nat
  pc : Nat → TPc
  flag : Nat → Bool
  token : Nat → Bool
  lpi : Nat → Nat
  aff : Nat → Option Nat
  ran : Nat → List Nat
  crashed : Nat → Bool
  task : Option Nat
  poisoned : Bool
  fin : CountDown.St
  issued : List Nat

/-- bounded.rs:79-83. -/
def St.init : St :=
  ⟨.making, 0, [], fun _ => [], fun _ => [], fun _ => .check, fun _ => false, fun _ => false, fun _ => 0, fun _ => none, fun _ => [], fun _ => false, none, false, .init, []⟩

inductive Act
  /-- one turn of the loop of `new` -/
  | spawn
  /-- the end of `new`, which was called with these processors -/
  | made (cpus : List (Option Nat))
  /-- the main thread calls `scope` -/
  | enter
  /-- it calls `run` -/
  | run (t : Nat)
  /-- the closure of `scope` ends -/
  | leave
  /-- the pool is dropped -/
  | join
  /-- the next step of the main thread in the pool -/
  | main
  /-- its wait on the condition variable of the end latch ends, notified or not -/
  | wake
  /-- the next step of thread `i` in the pool -/
  | thread (i : Nat)
  /-- `std::thread::park` returns in thread `i` for no reason -/
  | spurious (i : Nat)
  /-- the task returns on thread `i` -/
  | finish (i : Nat)
  /-- the task panics on thread `i` -/
  | crash (i : Nat)
deriving Repr, DecidableEq

/-- The number of logical processors. -/
def St.np (s : St) : Nat := s.cpus.length

/-- logical_processor.rs:64-66, `cpu_id`. -/
def St.cpu (s : St) (p : Nat) : Option Nat := s.cpus[p]?.join

/-- bounded.rs:450-471, `assign_to_processor`. -/
def St.assignTo (s : St) (w p : Nat) : R St := do
  match s.cpu p with
  | some c =>
    R.assert (s.pc w ≠ .gone)
    return { s with aff := upd s.aff w (some c), lpi := upd s.lpi w p }
  | none => return { s with lpi := upd s.lpi w p }

/-- One step of `start_next_thread` for processor `p`; what comes next, if anything. -/
def St.sub (s : St) (p : Nat) : Sub → R (St × Option Sub)
  | .seek k =>
    let q := (p + k) % s.np
    match s.ready q with
    | [] => .ok (s, if k + 1 < s.np then some (.seek (k + 1)) else none)
    | w :: l => .ok ({ s with ready := upd s.ready q l }, some (.push w q))
  -- the queues have room for `n` threads
  | .push w q => do
    R.assert ((s.done p).length < s.n)
    return ({ s with done := upd s.done p (s.done p ++ [w]) }, some (.assign w q))
  | .assign w q => do
    R.assert (w < s.n)
    R.assert (s.lpi w = q)
    let s ← if p ≠ q then s.assignTo w p else .ok s
    return (s, some (.flag w))
  | .flag w => .ok ({ s with flag := upd s.flag w true }, some (.unpark w))
  | .unpark w => .ok ({ s with token := upd s.token w true }, none)

/-- A step of the end latch. -/
def St.onFin (s : St) (a : CountDown.Act) (f : CountDown.St → St) : Option (R St) :=
  (CountDown.step s.fin a).map fun r => do return f (← r)

/-- The thread has borrowed the task. -/
def TPc.borrows : TPc → Bool
  | .running _ => true
  | _ => false

/-- The thread has borrowed the logical processors. -/
def TPc.borrowsLps : TPc → Bool
  | .load | .look _ | .running _ | .starting .. => true
  | _ => false

/-- The main thread has borrowed the task to write it. -/
def MPc.writes : MPc → Bool
  | .setting | .clearing => true
  | _ => false

/-- Where the main thread goes on after it looked at the end latch. -/
def St.looked (s : St) (fin : CountDown.St) : St :=
  { s with fin := fin, main := if fin.ws[0]?.any (fun w => decide (w.pc = .out)) then .passed else .waiting }

/-- logical_processor.rs:54-61, `reset`. -/
def St.reset (s : St) : R St := do
  R.assert ((List.range s.np).all fun q => (s.ready q).isEmpty)
  return { s with ready := s.done, done := s.ready }

/-- The next step of the main thread. -/
def mainStep (s : St) : Option (R St) :=
  match s.main with
  -- bounded.rs:288-292
  | .setting => some (.ok { s with main := if 0 < s.np then .starting 0 (.seek 0) else .ran })
  | .starting k sub => some do
      let (s, r) ← s.sub k sub
      return { s with main := match r with
        | some sub => .starting k sub
        | none => if k + 1 < s.np then .starting (k + 1) (.seek 0) else .ran }
  -- bounded.rs:240-242
  | .ending => if s.task.isSome then s.onFin (.wait 0) s.looked else some (.ok { s with main := .idle (some .done) })
  -- bounded.rs:245; a write panics if the task is borrowed
  | .passed => some (if (List.range s.n).any fun i => (s.pc i).borrows then .panic else .ok { s with task := none, main := .clearing })
  -- bounded.rs:248-252; a write panics if the logical processors are borrowed
  | .clearing => some (if (List.range s.n).any fun i => (s.pc i).borrowsLps then .panic else do
      let s ← s.reset
      return { s with main := .resetting })
  | .resetting => some (.ok { s with main := .checking })
  | .checking => some (.ok { s with main := .idle (some (if s.poisoned then .crashed else .done)) })
  | .unparking c k false => some (.ok { s with flag := upd s.flag k true, main := .unparking c k true })
  | .unparking c k true => some (.ok { s with token := upd s.token k true, main := if k + 1 < s.n then .unparking c (k + 1) false else .joining c 0 })
  -- bounded.rs:172-178
  | .joining c k =>
      if k < s.n then if s.pc k = .gone then some (if c && s.crashed k then .panic else .ok { s with main := .joining c (k + 1) }) else none
      -- the fields of the pool are dropped
      else s.onFin (.dropWaiter 0) fun fin => { s with fin := fin, main := .over }
  | _ => none

/-- Where a thread goes on after `start_next_thread`. -/
def Why.next : Why → TPc
  | .ret => .counting
  | .crash => .poisoning
  | .quit => .exiting

def St.put (s : St) (i : Nat) (pc : TPc) : St := { s with pc := upd s.pc i pc }

/-- The next step of thread `i`. -/
def threadStep (s : St) (i : Nat) : Option (R St) :=
  match s.pc i with
  | .check => some (.ok (if s.flag i then { s.put i .got with flag := upd s.flag i false } else s.put i .park))
  | .park => if s.token i then some (.ok { s.put i .check with token := upd s.token i false }) else none
  -- a borrow panics if the main thread is writing
  | .got => some (if s.main = .resetting then .panic else .ok (s.put i .load))
  -- bounded.rs:383-402
  | .load => some (if s.lpi i < s.np then .ok (s.put i (.look (s.lpi i))) else .panic)
  | .look p => some (if s.main.writes then .panic
      else match s.task with
        | some k => .ok { s.put i (.running p) with ran := upd s.ran i (s.ran i ++ [k]) }
        | none => .ok (s.put i (.starting .quit p (.seek 0))))
  | .starting why p sub => some do
      let (s, r) ← s.sub p sub
      return s.put i (match r with
        | some sub => .starting why p sub
        | none => why.next)
  | .counting => s.onFin (.countDown (i + 1)) fun fin =>
      { s.put i (if fin.cs[i + 1]?.any CountDown.Counter.pending then .notifying else .check) with fin := fin }
  | .notifying => s.onFin (.notify (i + 1)) fun fin => { s.put i .check with fin := fin }
  | .poisoning => some (.ok { s.put i .exiting with poisoned := true })
  | .exiting => s.onFin (.dropCounter (i + 1)) fun fin => { s.put i .gone with fin := fin }
  | .running _ | .gone => none

/-- One step; `none` if it is not possible now. -/
def step (s : St) : Act → Option (R St)
  -- bounded.rs:86-101
  | .spawn => if s.main = .making then s.onFin (.cloneCounter 0) fun fin => { s with fin := fin, n := s.n + 1 } else none
  -- bounded.rs:75-77 and 104-139; the counter that was cloned is dropped
  | .made cpus =>
      if s.main = .making then
        s.onFin (.dropCounter 0) fun fin =>
          let cpus := cpus.take s.n
          { s with fin := fin, main := .idle none, cpus := cpus, lpi := fun i => i % cpus.length,
                   ready := fun q => if q < cpus.length then (List.range s.n).filter (fun i => i % cpus.length = q) else [] }
      else none
  -- bounded.rs:201-222
  | .enter =>
      match s.main with
      | .idle _ => some (.ok { s with main := if s.poisoned then .idle (some .refused) else .scope })
      | _ => none
  -- bounded.rs:280-288; a write panics if the task is borrowed
  | .run t =>
      if s.main = .scope then
        some (if (List.range s.n).any fun i => (s.pc i).borrows then .panic else .ok { s with task := some t, issued := s.issued ++ [t], main := .setting })
      else none
  | .leave => if s.main = .scope ∨ s.main = .ran then some (.ok { s with main := .ending }) else none
  -- bounded.rs:157-168
  | .join =>
      match s.main with
      | .idle _ =>
          some (if s.task = none then .ok { s with main := if 0 < s.n then .unparking (!s.poisoned) 0 false else .joining (!s.poisoned) 0 } else .panic)
      | _ => none
  | .main => mainStep s
  | .wake => if s.main = .waiting then s.onFin (.wake 0) s.looked else none
  | .thread i => if i < s.n ∧ s.main ≠ .making then threadStep s i else none
  | .spurious i => if i < s.n ∧ s.pc i = .park then some (.ok (s.put i .check)) else none
  | .finish i => match s.pc i with
    | .running p => some (.ok (s.put i (.starting .ret p (.seek 0))))
    | _ => none
  | .crash i => match s.pc i with
    | .running p => some (.ok { s.put i (.starting .crash p (.seek 0)) with crashed := upd s.crashed i true })
    | _ => none

/-- The number of threads and counters fits a `usize`, and there is a processor if there is a thread (else the threads panic at bounded.rs:371). -/
def allowed (s : St) : Act → Prop
  | .spawn => s.n + 2 < CountDown.U
  | .made cpus => cpus ≠ [] ∨ s.n = 0
  | _ => True

inductive Run : St → Prop
  | init : Run .init
  | step {s s' : St} {a : Act} : Run s → allowed s a → step s a = some (.ok s') → Run s'

end Shadow.Pool.Bounded
