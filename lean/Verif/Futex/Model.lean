import Verif.Base.Panic

/-!
# Model of futexes

Sources: `/repo/src/main/host/futex.c`, `/repo/src/main/host/futex_table.rs`, `/repo/src/main/host/syscall/handler/futex.rs`,
`/repo/src/main/host/syscall/syscall_condition.c`, `/repo/src/main/host/status_listener.c`, and the parts of
`/repo/src/main/host/thread.rs` and `/repo/src/main/host/syscall/handler/mod.rs` that a blocked thread goes through.

A world has the threads of a host, the futexes, the conditions on which threads are blocked, and the wake-up tasks that
were scheduled. Simplifications: addresses are physical ones (`Process::physical_address` is not modelled); memory can be
read; threads block only in `futex`; `sig` stands for the result of `unblocked_signal_pending`; the delay of results by the
model of CPU latency is left out; a task is run at any time after it was scheduled, in order; a timer may fire at any time
from its expiration on (C26 is about when it does); references are not counted.
-/
namespace Shadow.Futex

open Shadow.Base

/-- status_listener.c:16-40, a listener of a futex: its sequence value, the condition that it calls, and whether the futex
    has woken it up (futex.c:21-24). -/
structure Listener where
  seq : Nat
  cond : Nat
  woken : Bool
deriving Repr, DecidableEq

/-- syscall_condition.c:22-45, `SysCallCondition` with a futex as trigger. -/
structure Cond where
  tid : Nat
  obj : Nat
  timeout : Option Nat
  armed : Bool
  listener : Option Nat
  scheduled : Bool
deriving Repr, DecidableEq

/-- A thread: whether it lives, its condition (thread.rs, `cond`), and the call that it is blocked in with the address and
    whether there is a timeout (handler/mod.rs:73-76, `blocked_syscall`; the call is repeated with the same arguments). -/
structure Thread where
  alive : Bool
  cond : Option Nat
  blocked : Option (Nat × Bool)
deriving Repr, DecidableEq

/-- `objs` are the futexes that were made, by number, with their listeners in the order of the hash table. -/
structure World where
  now : Nat
  seq : Nat
  mem : Nat → Nat
  table : Nat → Option Nat
  objs : Nat → List Listener
  nextObj : Nat
  conds : Nat → Cond
  nextCond : Nat
  thr : Nat → Thread
  sig : Nat → Bool
  tasks : List Nat

def World.new (mem : Nat → Nat) : World :=
  ⟨0, 0, mem, fun _ => none, fun _ => [], 0, fun _ => ⟨0, 0, none, false, none, false⟩, 0, fun _ => ⟨true, none, none⟩, fun _ => false, []⟩

def upd {α : Type} (f : Nat → α) (i : Nat) (x : α) : Nat → α := fun j => if j = i then x else f j

/-- syscall_condition.c:429-457, `_syscallcondition_scheduleWakeupTask`. -/
def World.schedule (w : World) (c : Nat) : World :=
  if (w.conds c).scheduled then w
  else { w with tasks := w.tasks ++ [c], conds := upd w.conds c { w.conds c with scheduled := true } }

/-- syscall_condition.c:123-171, `_syscallcondition_cleanupListeners`; futex.c:131-134, `futex_removeListener`. -/
def World.cancel (w : World) (c : Nat) : World :=
  let k := w.conds c
  let w := { w with conds := upd w.conds c { k with armed := false, listener := none } }
  match k.listener with
  | some s => { w with objs := upd w.objs k.obj ((w.objs k.obj).filter (fun l => l.seq != s)) }
  | none => w

/-- status_listener.c:41-52 and futex.c:86-89: sorting by the sequence values. -/
def insert (l : Listener) : List Listener → List Listener
  | [] => [l]
  | m :: ms => if l.seq ≤ m.seq then l :: m :: ms else m :: insert l ms

def sort : List Listener → List Listener
  | [] => []
  | l :: ls => insert l (sort ls)

/-- futex.c:94-116, the loop of `futex_wake` with the wake-ups left, over the sorted copy of the keys. -/
def World.wakeLoop (f : Nat) : Nat → List Listener → World → Nat → World × Nat
  | 0, _, w, n => (w, n)
  | _ + 1, [], w, n => (w, n)
  | room + 1, item :: rest, w, n =>
    match (w.objs f).find? (fun l => l.seq == item.seq) with
    | none => wakeLoop f (room + 1) rest w n
    | some l =>
      if l.woken then wakeLoop f (room + 1) rest w n
      else
        let w := w.schedule l.cond
        let w := { w with objs := upd w.objs f ((w.objs f).map (fun m => if m.seq == item.seq then { m with woken := true } else m)) }
        wakeLoop f room rest w (n + 1)

/-- handler/futex.rs:84-108, `futex_wake_helper`, and futex.c:73-122, `futex_wake`. The keys come in the order of `keys`. -/
def World.wake (w : World) (addr n : Nat) (keys : List Listener) : World × Nat :=
  match w.table addr with
  | none => (w, 0)
  | some f => if n = 0 then (w, 0) else w.wakeLoop f n (sort keys) 0

inductive Timeout where
  | relative (d : Nat)
  | absolute (t : Nat)

/-- handler/futex.rs:202-213. -/
def Timeout.deadline (now : Nat) : Timeout → Nat
  | .relative d => max (now + d) now
  | .absolute t => max t now

inductive Res where
  | eagain
  | eintr
  | etimedout
  | zero
  | blocked
deriving Repr, DecidableEq

/-- handler/futex.rs:178-199 and futex.c:30-42: the futex of an address, made if there is none. -/
def World.obtain (w : World) (addr : Nat) : World × Nat :=
  match w.table addr with
  | some f => (w, f)
  | none => ({ w with table := upd w.table addr (some w.nextObj), objs := upd w.objs w.nextObj [], nextObj := w.nextObj + 1 }, w.nextObj)

/-- thread.rs:539-546 and syscall_condition.c:485-571, `syscallcondition_waitNonblock` on a new condition; futex.c:124-129,
    `futex_addListener`. -/
def World.block (w : World) (tid addr f : Nat) (timeout : Option Nat) : World :=
  { w with
    conds := upd w.conds w.nextCond ⟨tid, f, timeout, timeout.isSome, some w.seq, false⟩
    nextCond := w.nextCond + 1
    objs := upd w.objs f ((w.objs f) ++ [⟨w.seq, w.nextCond, false⟩])
    seq := w.seq + 1
    thr := upd w.thr tid ⟨true, some w.nextCond, some (addr, timeout.isSome)⟩ }

/-- handler/futex.rs:110-215, `futex_wait_helper` for a call that was not blocked, with handler/mod.rs:243-254: a call that
    would block with a signal pending is interrupted. -/
def World.wait (w : World) (tid addr expected : Nat) (timeout : Option Timeout) : World × Res :=
  if w.mem addr ≠ expected then (w, .eagain)
  else
    let r := w.obtain addr
    if r.1.sig tid then (r.1, .eintr)
    else (r.1.block tid addr r.2 (timeout.map (fun t => t.deadline w.now)), .blocked)

/-- handler/futex.rs:147-176: the call is repeated after having been blocked. -/
def World.again (w : World) (tid addr : Nat) (hasTimeout : Bool) : R (World × Res) := do
  let f ← R.unwrap (w.table addr)
  let expired := match (w.thr tid).cond with
    | some c => (match (w.conds c).timeout with | some t => decide (w.now ≥ t) | none => false)
    | none => false
  let res := if hasTimeout && expired then Res.etimedout else if w.sig tid then Res.eintr else Res.zero
  let w := if (w.objs f).length == 0 then { w with table := upd w.table addr none } else w
  return ({ w with thr := upd w.thr tid ⟨true, none, none⟩ }, res)

/-- thread.rs:513-525, `resume`: the condition is cancelled and the blocked call repeated. A thread that is not blocked is
    never to be resumed. -/
def World.resume (w : World) (tid : Nat) : R (World × Res) :=
  let w := match (w.thr tid).cond with
    | some c => w.cancel c
    | none => w
  match (w.thr tid).blocked with
  | some (addr, hasTimeout) => w.again tid addr hasTimeout
  | none => .panic

/-- syscall_condition.c:361-427, `_syscallcondition_trigger` of the first task. The result is that of the thread's call, if
    it was resumed. -/
def World.runTask (w : World) : R (World × Option (Nat × Res)) :=
  match w.tasks with
  | [] => .ok (w, none)
  | c :: rest =>
    let w := { w with tasks := rest, conds := upd w.conds c { w.conds c with scheduled := false } }
    let tid := (w.conds c).tid
    if (w.thr tid).alive then do
      let r ← w.resume tid
      return (r.1, some (tid, r.2))
    else .ok (w, none)

/-- syscall_condition.c:473-483, the timer of a condition fires. -/
def World.expire (w : World) (c : Nat) : World :=
  World.schedule { w with conds := upd w.conds c { w.conds c with armed := false } } c

/-- syscall_condition.c:577-595, `syscallcondition_wakeupForSignal`, for a signal that is not blocked. -/
def World.poke (w : World) (tid : Nat) : World :=
  match (w.thr tid).cond with
  | some c => w.schedule c
  | none => w

/-- thread.rs:275-286, 552-555: a thread ends with its process. -/
def World.exit (w : World) (tid : Nat) : World :=
  let w := match (w.thr tid).cond with
    | some c => w.cancel c
    | none => w
  { w with thr := upd w.thr tid ⟨false, none, none⟩ }

end Shadow.Futex
