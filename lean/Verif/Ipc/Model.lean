import Verif.Base.Panic

/-!
# Shadow and the threads of its managed processes take turns

`ManagedThread` (src/main/host/managed_thread.rs) on Shadow's side, the shim (src/lib/shim/src/syscall.rs, lib.rs, clone.rs, signals.rs,
src/lib/shim/shim_sys.c) on the side of the managed process, and between them two channels per thread (src/lib/shadow-shim-helper-rs/src/ipc.rs).

The state is one host: the worker that runs it, its managed threads, the lock of the host's shared memory, and the clock.  Each action is a
step of the worker, of a thread, of the kernel (a process dies) or of the watcher of exits (it closes the channel of a dead process).

Simplifications.
* A channel is one slot with a flag (src/lib/vasi-sync/src/scchannel.rs; property C37 is about its atomics).  `send` and `receive` are one
  step.  A thread that dies in the middle of `send` has not sent: `receive` then sees a closed channel that is not `Ready`.
* What system calls do is not modelled: the answers of Shadow's handler, of the kernel and the application's behaviour are arbitrary.
* Of a signal only whether its action has `SA_RESTART`, or is fatal, is kept (property C50 is about the choice of signals).
* Native process numbers are not reused.  The order in which the parent of a clone sends its answer and the child starts is arbitrary.
* The contents of memory blocks written for `StartReq` (lines 204-244) are not modelled.
-/
namespace Shadow.Ipc

open Shadow.Base

/-- `SyscallArgs`: number and arguments. -/
structure Call where
  num : Int
  args : List Int
deriving DecidableEq, Repr

def sysExit : Int := 60
def sysClone : Int := 56
/-- clone, fork, vfork, clone3: the calls for which the handler makes a native clone (handler/clone.rs). -/
def isClone (n : Int) : Bool := n == 56 || n == 57 || n == 58 || n == 435
/-- `-EINTR`. -/
def eintr : Int := -4
/-- `SHADOW_SYSCALL_NUM_SHADOW_YIELD` (src/lib/shadow-shim-helper-rs/src/shadow_syscalls.rs:26). -/
def yieldCall : Call := ⟨1005, []⟩

/-- shim_event.rs:80-101, `ShimEventToShadow`. -/
inductive ToShadow where
  | startReq
  | death
  | syscall (c : Call)
  | complete (rv : Int) (rs : Bool)
  | addRes (r : Int)
deriving DecidableEq, Repr

/-- shim_event.rs:103-125, `ShimEventToShim`.  Of the request for a new thread: whether it has `CLONE_THREAD`, whether a stack is given,
and the index of the thread whose channels it is to use. -/
inductive ToShim where
  | startRes
  | syscall (c : Call)
  | addReq (thread stack : Bool) (blk : Nat)
  | complete (rv : Int) (rs : Bool)
  | doNative
deriving DecidableEq, Repr

/-- scchannel.rs:167-170. -/
structure Chan (α : Type) where
  msg : Option α := none
  closed : Bool := false
deriving DecidableEq, Repr

/-- scchannel.rs:180-207, `send`: panics if there is a message. -/
def Chan.send {α : Type} (ch : Chan α) (m : α) : R (Chan α) :=
  match ch.msg with
  | some _ => .panic
  | none => .ok { ch with msg := some m }

/-- An invocation of `emulated_syscall_event` that is inside `process_signals` (syscall.rs:82-104): its call, whether it was given a
context, the answer, and whether all handlers so far had `SA_RESTART`. -/
structure Frame where
  call : Call
  ctx : Bool
  rv : Int
  rs : Bool
  all : Bool
deriving DecidableEq, Repr

/-- Where a thread goes on after its start: in the program, at the context of the clone, or inside the clone call of its parent, of which
it is a copy (clone.rs:182-198, 285-308). -/
inductive After where
  | main
  | jump
  | fork (c : Call) (ctx : Bool) (stack : List Frame)
deriving DecidableEq, Repr

/-- Where a thread of a managed process is. -/
inductive Pc where
  | unborn
  /-- Before `send(start_req)` (lib.rs:607). -/
  | starting (a : After)
  /-- In the `receive` of lib.rs:608. -/
  | waitStart (a : After)
  /-- In the application, or in a handler of the application for a signal. -/
  | app
  /-- In `shim_sys_handle_syscall_locally`, with the host's lock (shim_sys.c:176-221). -/
  | inShim
  /-- In the `receive` of syscall.rs:78. -/
  | wait (c : Call) (ctx : Bool)
  /-- In `process_signals`, before and after taking the host's lock (signals.rs:113). -/
  | lockSig (f : Frame)
  | signals (f : Frame)
  /-- syscall.rs:121, the call of the application is made natively. -/
  | natApp (c : Call)
  /-- syscall.rs:154, a call is made for Shadow. -/
  | natShadow (c : Call) (ctx : Bool) (c' : Call)
  /-- syscall.rs:166, before and after the native clone. -/
  | cloning (c : Call) (ctx : Bool) (thread stack : Bool) (blk : Nat)
  | cloned (c : Call) (ctx : Bool) (r : Int)
  /-- signals.rs:84-101, `die_with_fatal_signal`. -/
  | exiting
  | dead
deriving DecidableEq, Repr

/-- The answer of Shadow's handler (`SyscallReturn`). -/
inductive Ans where
  | block
  | done (rv : Int) (rs : Bool)
  | native
deriving DecidableEq, Repr

/-- What is observed of a thread. -/
inductive Ev where
  /-- The application (or the shim in its place) makes a call. -/
  | ask (c : Call)
  /-- Shadow's handler was run for the call and gave an answer. -/
  | handled (c : Call) (a : Ans)
  /-- The shim makes the interrupted call again. -/
  | again (c : Call)
  /-- A handler of the application is started for a signal; does its action have `SA_RESTART`? -/
  | handler (restart : Bool)
  /-- The call returns to the application. -/
  | ret (c : Call) (rv : Int)
  /-- The application leaves handlers of signals without returning from them. -/
  | jump (n : Nat)
  /-- The thread is the copy of another one, made by a call of that one (not by this one). -/
  | forked
  /-- Shadow answers the call that made the copy, in the copy. -/
  | forkDone
deriving DecidableEq, Repr

/-- managed_thread.rs:50-66, `ManagedThread`, and the thread it stands for. -/
structure Thread where
  pc : Pc := .unborn
  stack : List Frame := []
  cur : ToShadow := .startReq
  running : Bool := false
  ret : Option Int := none
  toShim : Chan ToShim := {}
  toShadow : Chan ToShadow := {}
  /-- The watcher will close the channel when the process dies. -/
  registered : Bool := false
  proc : Int := 0
  log : List Ev := []
deriving DecidableEq, Repr

/-- What `continue_plugin` was called for (lines 303-325; 88-94; 369-381). -/
inductive Kont where
  | resume
  | nat
  | clone (b : Nat)
deriving DecidableEq, Repr

/-- Where the worker is: outside, in `resume` of a thread with `current_event` to handle, in the `receive` of `continue_plugin` (line 448),
of `spawn` (line 135), of `native_clone` (line 387), or in `wait_for_native_exit` (lines 484-531). -/
inductive Worker where
  | idle
  | handling (t : Nat)
  | cont (t : Nat) (k : Kont)
  | startMain (t : Nat)
  | startChild (t b : Nat) (r : Int)
  | exitWait (t : Nat)
deriving DecidableEq, Repr

inductive Lock where
  | worker
  | free
  | thread (i : Nat)
deriving DecidableEq, Repr

structure St where
  ts : List Thread := []
  w : Worker := .idle
  /-- The lock of the host's shared memory; the worker has it while it runs the host. -/
  lock : Lock := .worker
  /-- `Worker::current_time`. -/
  now : Nat := 0
  /-- `sim_time` of the host's shared memory. -/
  shimT : Nat := 0
  /-- `max_runahead_time` of the host's shared memory. -/
  maxT : Nat := 0
  /-- `unapplied_cpu_latency` of the host's shared memory. -/
  cpu : Nat := 0
deriving DecidableEq, Repr

/-- What the handler of a system call does next. -/
inductive HAct where
  /-- Only for events that are not system calls: what `resume` does is fixed. -/
  | go
  | nat (c : Call)
  | clone (thread stack : Bool)
  | ans (a : Ans)
deriving DecidableEq, Repr

inductive Act where
  /-- `ManagedThread::spawn` up to its `receive`; the native process has number `p`. -/
  | spawn (p : Int)
  /-- The `receive` of `spawn` or of `native_clone` returns. -/
  | startRecv
  /-- `resume` is called. -/
  | resume (t : Nat)
  /-- The loop of `resume` handles the current event; `mx` is `max_event_runahead_time`. -/
  | handle (h : HAct) (mx : Nat)
  /-- The `receive` of `continue_plugin` returns. -/
  | recv
  /-- `handle_process_exit`, `kill_and_drop`. -/
  | cleanup (t : Nat)
  /-- `wait_for_native_exit` sees that the thread is gone. -/
  | gone
  -- the threads
  | sendStart (t : Nat)
  /-- The `receive` of the shim returns.  `early`: `global_host_shmem` is not there yet (syscall.rs:84-88). -/
  | shimRecv (t : Nat) (early : Bool)
  | call (t : Nat) (c : Call) (ctx : Bool)
  | takeLock (t : Nat)
  | localBegin (t : Nat)
  /-- `lat` is the latency of the call, `maxCpu` is `max_unapplied_cpu_latency`. -/
  | localEnd (t : Nat) (lat maxCpu : Nat)
  | sigHandler (t : Nat) (restart : Bool)
  | sigFatal (t : Nat)
  | handlerRet (t : Nat)
  | jump (t : Nat) (n : Nat)
  | sigDone (t : Nat)
  | natDone (t : Nat) (rv : Int)
  | cloneDo (t : Nat) (r : Int)
  | cloneSend (t : Nat)
  -- the kernel and the watcher of exits
  | die (p : Int)
  | close (p : Int)
deriving DecidableEq, Repr

/-- Replace thread `t`. -/
def St.put (s : St) (t : Nat) (th : Thread) : St := { s with ts := s.ts.set t th }

/-- The shim sends to Shadow. -/
def Thread.toW (th : Thread) (e : ToShadow) : R Thread :=
  match th.toShadow.send e with
  | .panic => .panic
  | .ok ch => .ok { th with toShadow := ch }

/-- managed_thread.rs:434-446, the first part of `continue_plugin`, up to its `receive`. -/
def contPlugin (s : St) (t : Nat) (th : Thread) (m : ToShim) (k : Kont) (mx : Nat) : R St :=
  -- `unlock_shmem` asserts that the lock is held (host.rs:887-890)
  if s.lock = .worker then
    match th.toShim.send m with
    | .panic => .panic
    | .ok ch =>
      .ok { s with
        ts := s.ts.set t { th with toShim := ch }, w := .cont t k, lock := .free, maxT := mx, shimT := s.now }
  else .panic

/-- managed_thread.rs:199-328, one turn of the loop of `resume`, up to the `receive` of `continue_plugin` or the return. -/
def handleEv (s : St) (t : Nat) (th : Thread) (h : HAct) (mx : Nat) : Option (R St) :=
  match th.cur with
  | .startReq => if h = .go then some (contPlugin s t th .startRes .resume mx) else none
  -- lines 249-254
  | .death => if h = .go then some (.ok { s with w := .exitWait t }) else none
  | .syscall c =>
    if c.num = sysExit then
      -- lines 266-280
      if h = .go then
        match th.toShim.send .doNative with
        | .panic => some .panic
        | .ok ch =>
          some (.ok { s.put t { th with toShim := ch, ret := some (c.args.headD 0), log := th.log ++ [.handled c .native] } with
            w := .exitWait t })
      else none
    else
      match h with
      | .go => none
      -- lines 82-94
      | .nat c' => some (contPlugin s t th (.syscall c') .nat mx)
      -- lines 356-381; the channels of the child are new
      | .clone thr stk =>
        some (contPlugin { s with ts := s.ts ++ [{}] } t th (.addReq thr stk s.ts.length) (.clone s.ts.length) mx)
      -- lines 293-297: `current_event` stays
      | .ans .block => some (.ok { s.put t { th with log := th.log ++ [.handled c .block] } with w := .idle })
      | .ans (.done rv rs) =>
        some (contPlugin s t { th with log := th.log ++ [.handled c (.done rv rs)] } (.complete rv rs) .resume mx)
      | .ans .native => some (contPlugin s t { th with log := th.log ++ [.handled c .native] } .doNative .resume mx)
  | .addRes r =>
    -- lines 309-324
    if h = .go then
      if r = 0 then some (contPlugin s t { th with log := th.log ++ [.forkDone] } (.complete 0 false) .resume mx)
      else some .panic
    else none
  | .complete _ _ => if h = .go then some .panic else none

/-- managed_thread.rs:448-451: the event that `receive` returns, and the channel afterwards; `none` while it blocks. -/
def Thread.answer (th : Thread) : Option (ToShadow × Thread) :=
  match th.toShadow.msg with
  | some e => some (e, { th with toShadow := { th.toShadow with msg := none } })
  | none => if th.toShadow.closed then some (.death, th) else none

/-- managed_thread.rs:453-471, the rest of `continue_plugin`, and what its caller does with the event. -/
def contDone (s : St) (t : Nat) (k : Kont) (e : ToShadow) (th : Thread) : R St :=
  -- `lock_shmem`; `set_current_time`
  let s := { s with lock := .worker, now := s.shimT }
  match k with
  | .resume => .ok { s.put t { th with cur := e } with w := .handling t }
  | .nat =>
    match e with
    | .complete _ _ => .ok { s.put t th with w := .handling t }
    | _ => .panic
  | .clone b =>
    match e with
    | .addRes r =>
      if r < 0 then .ok { s.put t th with w := .handling t }
      -- `Pid::from_raw(0).unwrap()`
      else if r = 0 then .panic
      else .ok { s.put t th with w := .startChild t b r }
    | _ => .panic

/-- managed_thread.rs:135-190, 387-425: the `receive().unwrap()` of `spawn` and `native_clone` and what follows; `none` while it blocks. -/
def startDone (s : St) (b : Nat) (w : Worker) : Option (R St) :=
  match s.ts[b]? with
  | none => none
  | some th =>
    match th.toShadow.msg with
    | some .startReq =>
      some (.ok { s.put b { th with
        toShadow := { th.toShadow with msg := none }, cur := .startReq, running := true, registered := true } with w := w })
    | some _ => some .panic
    -- `Err(WriterIsClosed).unwrap()`
    | none => if th.toShadow.closed then some .panic else none

/-- Where a thread goes on after `StartRes` (lib.rs:610-646 and the callers of `wait_for_start_event`). -/
def started (a : After) (th : Thread) : R Thread :=
  match a with
  | .main => .ok { th with pc := .app }
  | .jump => .ok { th with pc := .app }
  -- clone.rs:199, syscall.rs:167-172
  | .fork c ctx stack => { th with pc := .wait c ctx, stack := stack }.toW (.addRes 0)

/-- syscall.rs:78-176 and lib.rs:606-612: the shim receives `m`. -/
def shimGot (th : Thread) (m : ToShim) (early : Bool) : Option (R Thread) :=
  match th.pc with
  | .waitStart a =>
    match m with
    | .startRes => some (started a th)
    | _ => some .panic
  | .wait c ctx =>
    match m with
    | .complete rv rs =>
      if early then some (.ok { th with pc := .app, log := th.log ++ [.ret c rv] })
      else some (.ok { th with pc := .lockSig ⟨c, ctx, rv, rs, true⟩ })
    | .doNative => some (.ok { th with pc := .natApp c })
    | .syscall c' => some (.ok { th with pc := .natShadow c ctx c' })
    -- `ctx.as_mut().unwrap()`
    | .addReq thr stk b => if ctx then some (.ok { th with pc := .cloning c ctx thr stk b }) else some .panic
    | .startRes => some .panic
  | _ => none

/-- The worker's `put` of the result of a step of thread `t`. -/
def lift (s : St) (t : Nat) (r : R Thread) : R St :=
  match r with
  | .panic => .panic
  | .ok th => .ok (s.put t th)

/-- syscall.rs:69-74: make a call of Shadow. -/
def askShadow (th : Thread) (c : Call) (ctx : Bool) : R Thread :=
  ({ th with pc := .wait c ctx, log := th.log ++ [.ask c] } : Thread).toW (.syscall c)

/-- The new thread after the native clone (clone.rs). -/
def newborn (parent child : Thread) (c : Call) (ctx thr stk : Bool) (r : Int) : Thread :=
  if thr then { child with pc := .starting .jump, proc := parent.proc }
  else if stk then { child with pc := .starting .jump, proc := r }
  else { child with pc := .starting (.fork c ctx parent.stack), proc := r, log := parent.log ++ [.forked] }

/-- The thread is there (it is not the memory of a thread that is yet to be made, and not dead). -/
def Thread.alive (th : Thread) : Bool :=
  match th.pc with
  | .unborn | .dead => false
  | _ => true

/-- One step; `none` if the action is not possible (or blocks) in the state. -/
def step (s : St) : Act → Option (R St)
  | .spawn p =>
    match s.w with
    | .idle =>
      some (.ok { s with ts := s.ts ++ [{ pc := .starting .main, proc := p, registered := true }], w := .startMain s.ts.length })
    | _ => none
  | .startRecv =>
    match s.w with
    | .startMain t => startDone s t .idle
    | .startChild t b _ => startDone s b (.handling t)
    | _ => none
  | .resume t =>
    match s.w with
    | .idle => if t < s.ts.length then some (.ok { s with w := .handling t }) else none
    | _ => none
  | .handle h mx =>
    match s.w with
    | .handling t => match s.ts[t]? with
      | some th => handleEv s t th h mx
      | none => none
    | _ => none
  | .recv =>
    match s.w with
    | .cont t k => match s.ts[t]? with
      | some th => match th.answer with
        -- `lock_shmem` blocks while a thread has the lock
        | some (e, th') => if s.lock = .free then some (contDone s t k e th') else none
        | none => none
      | none => none
    | _ => none
  | .cleanup t =>
    match s.w with
    | .idle => if t < s.ts.length then some (.ok { s with w := .exitWait t }) else none
    | _ => none
  | .gone =>
    match s.w with
    | .exitWait t => match s.ts[t]? with
      | some th =>
        -- line 475: nothing to do if it is not running
        if th.running = false ∨ th.toShadow.closed ∨ th.pc = .dead then
          some (.ok { s.put t { th with running := false } with w := .idle })
        else none
      | none => none
    | _ => none
  | .sendStart t =>
    match s.ts[t]? with
    | some th => match th.pc with
      | .starting a => some (lift s t ({ th with pc := .waitStart a }.toW .startReq))
      | _ => none
    | none => none
  | .shimRecv t early =>
    match s.ts[t]? with
    | some th => match th.toShim.msg with
      | some m => match shimGot { th with toShim := { th.toShim with msg := none } } m early with
        | some r => some (lift s t r)
        | none => none
      -- `to_plugin` is never closed
      | none => none
    | none => none
  | .call t c ctx =>
    match s.ts[t]? with
    | some th => match th.pc with
      | .app => some (lift s t (askShadow th c ctx))
      | _ => none
    | none => none
  | .takeLock t =>
    match s.ts[t]? with
    | some th => match th.pc with
      | .lockSig f => if s.lock = .free then some (.ok { s.put t { th with pc := .signals f } with lock := .thread t }) else none
      | _ => none
    | none => none
  | .localBegin t =>
    match s.ts[t]? with
    | some th => match th.pc with
      | .app => if s.lock = .free then some (.ok { s.put t { th with pc := .inShim } with lock := .thread t }) else none
      | _ => none
    | none => none
  | .localEnd t lat maxCpu =>
    match s.ts[t]? with
    | some th => match th.pc with
      | .inShim =>
        -- shim_sys.c:176-221
        if maxCpu < s.cpu + lat then
          if s.shimT + (s.cpu + lat) ≤ s.maxT then
            some (.ok { s.put t { th with pc := .app } with lock := .free, shimT := s.shimT + (s.cpu + lat), cpu := 0 })
          else some (lift { s with lock := .free, cpu := s.cpu + lat } t (askShadow th yieldCall false))
        else some (.ok { s.put t { th with pc := .app } with lock := .free, cpu := s.cpu + lat })
      | _ => none
    | none => none
  | .sigHandler t restart =>
    match s.ts[t]? with
    | some th => match th.pc with
      | .signals f =>
        -- signals.rs:172-174, 240-243
        some (.ok { s.put t { th with pc := .app, stack := { f with all := f.all && restart } :: th.stack,
                                      log := th.log ++ [.handler restart] } with lock := .free })
      | _ => none
    | none => none
  | .sigFatal t =>
    match s.ts[t]? with
    | some th => match th.pc with
      | .signals _ => some (.ok { s.put t { th with pc := .exiting } with lock := .free })
      | _ => none
    | none => none
  | .handlerRet t =>
    match s.ts[t]? with
    | some th => match th.pc, th.stack with
      | .app, f :: fs => some (.ok (s.put t { th with pc := .lockSig f, stack := fs }))
      | _, _ => none
    | none => none
  | .jump t n =>
    match s.ts[t]? with
    | some th => match th.pc with
      | .app => some (.ok (s.put t { th with stack := th.stack.drop n, log := th.log ++ [.jump n] }))
      | _ => none
    | none => none
  | .sigDone t =>
    match s.ts[t]? with
    | some th => match th.pc with
      | .signals f =>
        -- syscall.rs:103-117
        if f.rv = eintr ∧ f.all = true ∧ f.rs = true then
          some (lift { s with lock := .free } t
            (({ th with pc := .wait f.call f.ctx, log := th.log ++ [.again f.call] } : Thread).toW (.syscall f.call)))
        else some (.ok { s.put t { th with pc := .app, log := th.log ++ [.ret f.call f.rv] } with lock := .free })
      | _ => none
    | none => none
  | .natDone t rv =>
    match s.ts[t]? with
    | some th => match th.pc with
      | .natApp c =>
        -- syscall.rs:24-35
        if c.num = sysClone then some .panic
        else if c.num = sysExit then some (.ok (s.put t { th with pc := .dead }))
        else some (.ok (s.put t { th with pc := .app, log := th.log ++ [.ret c rv] }))
      | .natShadow c ctx c' =>
        if c'.num = sysClone then some .panic
        else if c'.num = sysExit then some (.ok (s.put t { th with pc := .dead }))
        else some (lift s t ({ th with pc := .wait c ctx }.toW (.complete rv false)))
      | _ => none
    | none => none
  | .cloneDo t r =>
    match s.ts[t]? with
    | some th => match th.pc with
      | .cloning c ctx thr stk b =>
        if r < 0 then some (.ok (s.put t { th with pc := .cloned c ctx r }))
        else match s.ts[b]? with
          | some ch => some (.ok ((s.put t { th with pc := .cloned c ctx r }).put b (newborn th ch c ctx thr stk r)))
          | none => none
      | _ => none
    | none => none
  | .cloneSend t =>
    match s.ts[t]? with
    | some th => match th.pc with
      | .cloned c ctx r => some (lift s t ({ th with pc := .wait c ctx }.toW (.addRes r)))
      | _ => none
    | none => none
  | .die p =>
    some (.ok { s with ts := s.ts.map fun th => if th.proc = p ∧ th.alive then { th with pc := .dead } else th })
  | .close p =>
    -- childpid_watcher.rs runs the callbacks of the process once it has exited
    if s.ts.all (fun th => th.proc != p || !th.alive) then
      some (.ok { s with ts := s.ts.map fun th =>
        if th.proc = p ∧ th.pc = .dead ∧ th.registered then { th with toShadow := { th.toShadow with closed := true } } else th })
    else none

/-- The contract of the parts that are not modelled. -/
def allowed (s : St) : Act → Prop
  | .spawn p => 0 < p ∧ ∀ th ∈ s.ts, th.proc ≠ p
  -- the process of a thread is resumed only while the thread is running (`debug_assert!`, line 190)
  | .resume t => ∃ th, s.ts[t]? = some th ∧ th.running = true
  | .handle h _ => ∀ t th c, s.w = .handling t → s.ts[t]? = some th → th.cur = .syscall c →
    match h with
    -- the calls of `native_syscall` are in thread.rs:300-440
    | .nat c' => c'.num ≠ sysExit ∧ c'.num ≠ sysClone
    | .clone _ _ => isClone c.num = true
    | .ans .native => c.num ≠ sysClone
    | _ => True
  -- a clone is trapped by seccomp, which gives a context (not so through `shim_api_syscall`: see `C65_finding_clone_wrapper`)
  | .call _ c ctx => isClone c.num = true → ctx = true
  -- the kernel answers a clone with an error or the number of a new thread
  | .cloneDo _ r => r ≠ 0 ∧ (0 < r → ∀ th ∈ s.ts, th.proc ≠ r)
  | _ => True

/-- Executions under the contract. -/
inductive Run : St → Prop where
  | init : Run {}
  | step {s s' : St} {a : Act} : Run s → allowed s a → step s a = some (.ok s') → Run s'

/-- Run a list of actions. -/
def exec (s : St) : List Act → Option (R St)
  | [] => some (.ok s)
  | a :: as =>
    match step s a with
    | some (.ok s') => exec s' as
    | some .panic => if as = [] then some .panic else none
    | none => none

end Shadow.Ipc
