import Verif.Ipc.Model

/-!
# The turns of Shadow and its managed threads: what is observed of a thread, and the invariant
-/
namespace Shadow.Ipc

open Shadow.Base

/-! ## Specification: what a thread observes -/

/-- The state of a call that was made and has not returned. -/
inductive Call1 where
  /-- Not answered. -/
  | asked
  /-- Answered; have all handlers that were started since then asked for restarting? -/
  | answered (rv : Int) (restartable : Bool) (all : Bool)
  | native
deriving DecidableEq, Repr

/-- The calls of a thread that have not returned, the latest first (a handler of a signal makes calls while the interrupted one is answered
and has not returned). -/
abbrev Pending := List (Call × Call1)

/-- May the program run: nothing was asked, or the latest call was answered (and a handler of a signal runs). -/
def free : Pending → Bool
  | [] => true
  | (_, .answered _ _ _) :: _ => true
  | _ => false

/-- One observation.  `none`: it must not happen. -/
def obs (p : Pending) : Ev → Option Pending
  | .ask c => if free p then some ((c, .asked) :: p) else none
  | .handled c a =>
    match p with
    | (c', .asked) :: p' =>
      if c = c' then
        match a with
        | .block => some p
        | .done rv rs => some ((c, .answered rv rs true) :: p')
        | .native => some ((c, .native) :: p')
      else none
    | _ => none
  | .again c =>
    match p with
    | (c', .answered rv rs all) :: p' => if c = c' ∧ rv = -4 ∧ rs = true ∧ all = true then some ((c, .asked) :: p') else none
    | _ => none
  | .handler r =>
    match p with
    | (c, .answered rv rs all) :: p' => some ((c, .answered rv rs (all && r)) :: p')
    | _ => none
  | .ret c rv =>
    match p with
    | (c', .answered rv' _ _) :: p' => if c = c' ∧ rv = rv' then some p' else none
    | (c', .native) :: p' => if c = c' then some p' else none
    | _ => none
  | .jump n => if free p then some (p.drop n) else none
  | .forked =>
    match p with
    | (_, .asked) :: _ => some p
    | _ => none
  | .forkDone =>
    match p with
    | (c, .asked) :: p' => some ((c, .answered 0 false true) :: p')
    | _ => none

/-- All observations, in order. -/
def obsAll (p : Pending) : List Ev → Option Pending
  | [] => some p
  | e :: l =>
    match obs p e with
    | some p' => obsAll p' l
    | none => none

/-! ## Lemmas -/

theorem obsAll_append {p : Pending} {l1 l2 : List Ev} {q : Pending} (h : obsAll p l1 = some q) :
    obsAll p (l1 ++ l2) = obsAll q l2 := by
  induction l1 generalizing p with
  | nil => simp only [obsAll, Option.some.injEq] at h; subst h; rfl
  | cons e l ih =>
    simp only [obsAll] at h
    cases ho : obs p e with
    | none => rw [ho] at h; exact absurd h (by simp)
    | some p' => rw [ho] at h; simp only [List.cons_append, obsAll, ho]; exact ih h

theorem obsAll_snoc {l : List Ev} {q : Pending} (h : obsAll [] l = some q) (e : Ev) : obsAll [] (l ++ [e]) = obs q e := by
  rw [obsAll_append h]; simp only [obsAll]; cases obs q e <;> rfl

/-- The calls that are pending below a handler of a signal. -/
def ents (st : List Frame) : Pending := st.map fun f => (f.call, .answered f.rv f.rs f.all)

theorem free_ents (st : List Frame) : free (ents st) = true := by cases st <;> rfl

theorem ents_drop (st : List Frame) (n : Nat) : (ents st).drop n = ents (st.drop n) := by simp [ents]

/-! ## The invariant -/

/-- What the thread has observed leaves `p` pending. -/
def Thread.pend (th : Thread) (p : Pending) : Prop := obsAll [] th.log = some p

/-- The shim has a context for a call that makes threads. -/
def CtxOk (c : Call) (ctx : Bool) : Prop := isClone c.num = true → ctx = true

def StackOk (st : List Frame) : Prop := ∀ f ∈ st, CtxOk f.call f.ctx

/-- Pending are `p` and the interrupted calls on the stack. -/
def Thread.holds (th : Thread) (p : Pending) : Prop := th.pend (p ++ ents th.stack) ∧ StackOk th.stack

/-- The thread is dead. -/
def Thread.isDead (th : Thread) : Prop := th.pc = .dead ∧ ∃ p, th.pend p

/-- What a thread has observed that is to start. -/
def StartLog (th : Thread) : After → Prop
  | .fork c ctx stack => th.pend ((c, .asked) :: ents stack) ∧ CtxOk c ctx ∧ StackOk stack
  | _ => th.holds []

/-- The thread waits for the answer to the call, or has died since. -/
def Parked (th : Thread) (c : Call) : Prop :=
  (∃ ctx, th.pc = .wait c ctx ∧ CtxOk c ctx ∧ th.holds [(c, .asked)]) ∨ (th.pc = .dead ∧ ∃ es, th.pend ((c, .asked) :: es))

/-- The thread has sent `e` and waits for the answer (or has died since). -/
def Waits (th : Thread) : ToShadow → Prop
  | .startReq => (∃ a, th.pc = .waitStart a ∧ StartLog th a) ∨ th.isDead
  | .syscall c => Parked th c
  | .addRes r => r = 0 ∧ ∃ c, Parked th c
  | .death => th.isDead
  | .complete _ _ => False

/-- It is not the thread's turn. -/
def Quiet (th : Thread) : Prop :=
  (th.running = false ∧ (th.pc = .unborn ∨ th.pc = .dead) ∧ ∃ p, th.pend p) ∨
  (th.running = true ∧ th.cur = .death ∧ th.isDead) ∨
  (th.running = true ∧ th.toShim.msg = none ∧ th.toShadow.msg = none ∧ Waits th th.cur)

/-- The answer `m` to the event is there, and the thread has not read it. -/
def Replied (th : Thread) (m : ToShim) : Prop :=
  th.isDead ∨
  (m = .startRes ∧ ∃ a, th.pc = .waitStart a ∧ StartLog th a) ∨
  (∃ c ctx rv rs, m = .complete rv rs ∧ th.pc = .wait c ctx ∧ CtxOk c ctx ∧ th.holds [(c, .answered rv rs true)]) ∨
  (∃ c ctx, m = .doNative ∧ th.pc = .wait c ctx ∧ c.num ≠ sysClone ∧ c.num ≠ sysExit ∧ th.holds [(c, .native)])

/-- The thread runs the application. -/
def Busy (th : Thread) : Prop :=
  ((th.pc = .app ∨ th.pc = .inShim) ∧ th.holds []) ∨
  (∃ f, (th.pc = .lockSig f ∨ th.pc = .signals f) ∧ CtxOk f.call f.ctx ∧ th.holds [(f.call, .answered f.rv f.rs f.all)]) ∨
  (∃ c, th.pc = .natApp c ∧ c.num ≠ sysClone ∧ c.num ≠ sysExit ∧ th.holds [(c, .native)]) ∨
  (th.pc = .exiting ∧ ∃ p, th.pend p) ∨ th.isDead

/-- It is the thread's turn. -/
def Active (th : Thread) : Kont → Prop
  | .resume =>
    (∃ m, th.toShim.msg = some m ∧ th.toShadow.msg = none ∧ Replied th m) ∨
    (th.toShim.msg = none ∧ th.toShadow.msg = none ∧ Busy th) ∨
    (th.toShim.msg = none ∧ ∃ e, th.toShadow.msg = some e ∧ e ≠ .startReq ∧ e ≠ .death ∧ Waits th e)
  | .nat => ∃ c, th.cur = .syscall c ∧
    ((∃ c', th.toShim.msg = some (.syscall c') ∧ th.toShadow.msg = none ∧ c'.num ≠ sysExit ∧ c'.num ≠ sysClone ∧ Parked th c) ∨
     (th.toShim.msg = none ∧ th.toShadow.msg = none ∧
        ((∃ ctx c', th.pc = .natShadow c ctx c' ∧ c'.num ≠ sysExit ∧ c'.num ≠ sysClone ∧ CtxOk c ctx ∧ th.holds [(c, .asked)]) ∨
          th.isDead)) ∨
     (th.toShim.msg = none ∧ (∃ rv rs, th.toShadow.msg = some (.complete rv rs)) ∧ Parked th c))
  | .clone b => ∃ c, th.cur = .syscall c ∧ isClone c.num = true ∧
    ((∃ thr stk, th.toShim.msg = some (.addReq thr stk b) ∧ th.toShadow.msg = none ∧ Parked th c) ∨
     (th.toShim.msg = none ∧ th.toShadow.msg = none ∧
        ((∃ ctx, ((∃ thr stk, th.pc = .cloning c ctx thr stk b) ∨ ∃ r, r ≠ 0 ∧ th.pc = .cloned c ctx r) ∧ CtxOk c ctx ∧
            th.holds [(c, .asked)]) ∨
          th.isDead)) ∨
     (th.toShim.msg = none ∧ (∃ r, r ≠ 0 ∧ th.toShadow.msg = some (.addRes r)) ∧ Parked th c))

/-- The thread is not known to Shadow yet. -/
def Child (th : Thread) : Prop :=
  th.running = false ∧ th.toShim.msg = none ∧
  ((th.pc = .unborn ∧ th.toShadow.msg = none ∧ th.holds []) ∨
   (th.toShadow.msg = none ∧ ((∃ a, th.pc = .starting a ∧ StartLog th a) ∨ th.isDead)) ∨
   (th.toShadow.msg = some .startReq ∧ Waits th .startReq))

/-- Shadow waits for the end of the thread. -/
def Leaving (th : Thread) : Prop :=
  Quiet th ∨ th.isDead ∨
  (th.running = true ∧ th.toShim.msg = some .doNative ∧ ∃ c ctx, th.pc = .wait c ctx ∧ c.num = sysExit ∧ th.holds [(c, .native)]) ∨
  (th.running = true ∧ ∃ c, th.pc = .natApp c ∧ c.num = sysExit ∧ th.holds [(c, .native)])

inductive Role where
  | quiet
  | active (k : Kont)
  | child
  | leaving

/-- What a thread is for the worker. -/
def role (w : Worker) (i : Nat) : Role :=
  match w with
  | .cont t k =>
    if i = t then .active k
    else match k with
      | .clone b => if i = b then .child else .quiet
      | _ => .quiet
  | .startMain t => if i = t then .child else .quiet
  | .startChild _ b _ => if i = b then .child else .quiet
  | .exitWait t => if i = t then .leaving else .quiet
  | _ => .quiet

def RoleOk (th : Thread) : Role → Prop
  | .quiet => Quiet th
  | .active k => th.running = true ∧ Active th k
  | .child => Child th
  | .leaving => Leaving th

/-- What holds of every thread. -/
def TOk (th : Thread) (r : Role) : Prop := RoleOk th r ∧ (th.toShadow.closed = true → th.pc = .dead)

/-- The parent `th` of a clone and its child `ch` agree on whether the child is born. -/
structure Link (th ch : Thread) (b : Nat) : Prop where
  before : (∃ thr stk, th.toShim.msg = some (.addReq thr stk b)) ∨ (∃ c ctx thr stk, th.pc = .cloning c ctx thr stk b) → ch.pc = .unborn
  after : (∃ c ctx r, th.pc = .cloned c ctx r ∧ 0 < r) ∨ (∃ r, 0 < r ∧ th.toShadow.msg = some (.addRes r)) → ch.pc ≠ .unborn
  failed : (∃ c ctx r, th.pc = .cloned c ctx r ∧ r < 0) ∨ (∃ r, r < 0 ∧ th.toShadow.msg = some (.addRes r)) → ch.pc = .unborn

/-- The worker's position makes sense. -/
def WOk (s : St) : Prop :=
  match s.w with
  | .idle => True
  | .handling t => ∃ th, s.ts[t]? = some th ∧ th.running = true
  | .cont t k => ∃ th, s.ts[t]? = some th ∧
    match k with
    | .clone b => b ≠ t ∧ ∃ ch, s.ts[b]? = some ch ∧ ch.registered = false ∧ ch.toShadow.closed = false ∧ Link th ch b
    | _ => True
  | .startMain t => ∃ th, s.ts[t]? = some th ∧ th.pc ≠ .unborn ∧ th.registered = true
  | .startChild t b _ => b ≠ t ∧ (∃ th, s.ts[t]? = some th ∧ th.running = true) ∧
      ∃ ch, s.ts[b]? = some ch ∧ ch.registered = false ∧ ch.toShadow.closed = false ∧ ch.pc ≠ .unborn
  | .exitWait t => t < s.ts.length

/-- The thread has the lock of the host's shared memory. -/
def Thread.locks (th : Thread) : Bool :=
  match th.pc with
  | .inShim | .signals _ => true
  | _ => false

/-- The lock. -/
def LOk (s : St) : Prop :=
  match s.w with
  | .cont t _ => ∃ th, s.ts[t]? = some th ∧
      ((s.lock = .free ∧ th.locks = false) ∨ (s.lock = .thread t ∧ (th.locks = true ∨ th.pc = .dead)))
  | _ => s.lock = .worker

/-- The clock. -/
def ClockOk (s : St) : Prop :=
  match s.w with
  | .cont _ _ => s.now ≤ s.shimT ∧ s.shimT ≤ max s.now s.maxT
  | _ => True

structure Inv (s : St) : Prop where
  ts : ∀ i th, s.ts[i]? = some th → TOk th (role s.w i)
  w : WOk s
  l : LOk s
  c : ClockOk s

end Shadow.Ipc
