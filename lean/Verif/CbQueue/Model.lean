import Verif.Base.Panic
/-!
# Deferred callbacks

Source: `/repo/src/main/utility/legacy_callback_queue.rs` and `CallbackQueue` in `/repo/src/main/utility/callback_queue.rs:13-84`.

A callback gets the queue it was taken from and can add callbacks to it. Code in C cannot pass this queue on and adds callbacks to a queue of the thread, which the outermost
`with_global_cb_queue` runs before it returns. Calls nest: a callback may start a queue of its own, inside of which there are callbacks, and so on.

A machine with an explicit stack: `frame p q` is code `p` that has been given the queue `q` and after which the queue is run; `top` is the outermost
`with_global_cb_queue` once its argument has returned.

Simplifications: what a callback does is given beforehand as a program (its effects are numbers that it emits), so that a callback that adds itself for ever does not exist; borrows of
the queue of the thread last for one operation each and are not modelled.
-/
namespace Shadow.CbQueue

open Shadow.Base

/-- What code can do. -/
inductive Prog where
  | done
  /-- an effect -/
  | emit (n : Nat) (k : Prog)
  /-- `cb_queue.add` (callback_queue.rs:33-35) -/
  | own (cb : Prog) (k : Prog)
  /-- `notify_listeners_with_global_cb_queue` and `socket_wants_to_send_with_global_cb_queue` (legacy_callback_queue.rs:74-127) -/
  | global (cb : Prog) (k : Prog)
  /-- `queue_and_run_with_legacy` (callback_queue.rs:56-64, 78-83) -/
  | withQ (f : Prog) (k : Prog)
deriving DecidableEq, Repr

inductive Frame where
  | frame (p : Prog) (q : List Prog)
  | top
deriving DecidableEq, Repr

structure St where
  stack : List Frame
  /-- `C_CALLBACK_QUEUE` -/
  glob : Option (List Prog)
  trace : List Nat
deriving DecidableEq, Repr

/-- `with_global_cb_queue` begins (legacy_callback_queue.rs:26-40): the frames above are those of the argument. -/
def St.enter (s : St) (below : List Frame) (arg : List Frame) : St :=
  match s.glob with
  | some _ => { s with stack := arg ++ below }
  | none => { s with stack := arg ++ .top :: below, glob := some [] }

/-- Adding to the queue of the thread, which must be there (legacy_callback_queue.rs:84-90, 113-124). -/
def St.add (s : St) (cb : Prog) : R St := do
  let g ← R.unwrap s.glob
  .ok { s with glob := some (g ++ [cb]) }

/-- One step; `none` if there is nothing left. -/
def step (s : St) : R (Option St) :=
  match s.stack with
  | [] => .ok none
  | .frame .done [] :: below => .ok (some { s with stack := below })
  -- callback_queue.rs:38-52
  | .frame .done (cb :: q) :: below => .ok (some { s with stack := .frame cb q :: below })
  | .frame (.emit n k) q :: below => .ok (some { s with stack := .frame k q :: below, trace := s.trace ++ [n] })
  | .frame (.own cb k) q :: below => .ok (some { s with stack := .frame k (q ++ [cb]) :: below })
  | .frame (.global cb k) q :: below => do
    let s' ← (s.enter (.frame k q :: below) []).add cb
    .ok (some s')
  | .frame (.withQ f k) q :: below => .ok (some (s.enter (.frame k q :: below) [.frame f []]))
  -- legacy_callback_queue.rs:45-56
  | .top :: below => do
    let g ← R.unwrap s.glob
    if g = [] then .ok (some { s with stack := below, glob := none })
    else .ok (some { s with stack := .frame .done g :: .top :: below, glob := some [] })

/-- Steps until nothing is left. -/
def run : Nat → St → R (Option St)
  | 0, _ => .ok none
  | n + 1, s => do
    match ← step s with
    | none => .ok (some s)
    | some s' => run n s'

/-- The simulator calls `queue_and_run_with_legacy` while no queue is there. -/
def start (f : Prog) : St := ⟨[.frame (.withQ f .done) []], none, []⟩

end Shadow.CbQueue
