import Verif.Wake.Inv

/-!
The states after the parts of a step, in closed form, and what they keep of the invariant (C67).
-/

namespace Shadow.Wake

open Shadow.Base

/-- A thread without condition goes on. -/
def goSt (s : St) (u : Nat) (why : Why) : St := { s with cur := some u, log := s.log ++ [(u, why)] }

@[simp, grind =] theorem goSt_now (s : St) (u : Nat) (why : Why) : (goSt s u why).now = s.now := rfl
@[simp, grind =] theorem goSt_queue (s : St) (u : Nat) (why : Why) : (goSt s u why).queue = s.queue := rfl
@[simp, grind =] theorem goSt_conds (s : St) (u : Nat) (why : Why) : (goSt s u why).conds = s.conds := rfl
@[simp, grind =] theorem goSt_nc (s : St) (u : Nat) (why : Why) : (goSt s u why).nc = s.nc := rfl
@[simp, grind =] theorem goSt_objs (s : St) (u : Nat) (why : Why) : (goSt s u why).objs = s.objs := rfl
@[simp, grind =] theorem goSt_ths (s : St) (u : Nat) (why : Why) : (goSt s u why).ths = s.ths := rfl
@[simp, grind =] theorem goSt_ppend (s : St) (u : Nat) (why : Why) : (goSt s u why).ppend = s.ppend := rfl
@[simp, grind =] theorem goSt_cur (s : St) (u : Nat) (why : Why) : (goSt s u why).cur = some u := rfl
@[simp, grind =] theorem goSt_next (s : St) (u : Nat) (why : Why) : (goSt s u why).next = s.next := rfl
@[simp, grind =] theorem goSt_execd (s : St) (u : Nat) (why : Why) : (goSt s u why).execd = s.execd := rfl
@[simp, grind =] theorem goSt_odd (s : St) (u : Nat) (why : Why) : (goSt s u why).odd = s.odd := rfl
@[simp, grind =] theorem goSt_log (s : St) (u : Nat) (why : Why) : (goSt s u why).log = s.log ++ [(u, why)] := rfl

/-- A thread goes on that waited on `c`. -/
def runSt (s : St) (c u : Nat) (why : Why) : St :=
  { s with
    cur := some u
    log := s.log ++ [(u, why)]
    conds := fun i => if i = c then { s.conds c with
      timer := false, armed := (s.conds c).armed && !(s.conds c).timer, listening := false
      cut := (s.conds c).cut || decide (why ≠ .wake c)
      refs := (s.conds c).refs - (s.conds c).timer.toNat - (s.conds c).listening.toNat } else s.conds i }

@[simp, grind =] theorem runSt_now (s : St) (c u : Nat) (why : Why) : (runSt s c u why).now = s.now := rfl
@[simp, grind =] theorem runSt_queue (s : St) (c u : Nat) (why : Why) : (runSt s c u why).queue = s.queue := rfl
@[simp, grind =] theorem runSt_conds (s : St) (c u : Nat) (why : Why) (i : Nat) :
    (runSt s c u why).conds i = if i = c then { s.conds c with
      timer := false, armed := (s.conds c).armed && !(s.conds c).timer, listening := false
      cut := (s.conds c).cut || decide (why ≠ .wake c)
      refs := (s.conds c).refs - (s.conds c).timer.toNat - (s.conds c).listening.toNat } else s.conds i := rfl
@[simp, grind =] theorem runSt_nc (s : St) (c u : Nat) (why : Why) : (runSt s c u why).nc = s.nc := rfl
@[simp, grind =] theorem runSt_objs (s : St) (c u : Nat) (why : Why) : (runSt s c u why).objs = s.objs := rfl
@[simp, grind =] theorem runSt_ths (s : St) (c u : Nat) (why : Why) : (runSt s c u why).ths = s.ths := rfl
@[simp, grind =] theorem runSt_ppend (s : St) (c u : Nat) (why : Why) : (runSt s c u why).ppend = s.ppend := rfl
@[simp, grind =] theorem runSt_cur (s : St) (c u : Nat) (why : Why) : (runSt s c u why).cur = some u := rfl
@[simp, grind =] theorem runSt_next (s : St) (c u : Nat) (why : Why) : (runSt s c u why).next = s.next := rfl
@[simp, grind =] theorem runSt_execd (s : St) (c u : Nat) (why : Why) : (runSt s c u why).execd = s.execd := rfl
@[simp, grind =] theorem runSt_odd (s : St) (c u : Nat) (why : Why) : (runSt s c u why).odd = s.odd := rfl
@[simp, grind =] theorem runSt_log (s : St) (c u : Nat) (why : Why) : (runSt s c u why).log = s.log ++ [(u, why)] := rfl

/-- A thread leaves. -/
def leaveSt (s : St) (u : Nat) : St := { s with ths := s.ths.filter fun x => x.uid ≠ u }

@[simp, grind =] theorem leaveSt_now (s : St) (u : Nat) : (leaveSt s u).now = s.now := rfl
@[simp, grind =] theorem leaveSt_queue (s : St) (u : Nat) : (leaveSt s u).queue = s.queue := rfl
@[simp, grind =] theorem leaveSt_conds (s : St) (u : Nat) : (leaveSt s u).conds = s.conds := rfl
@[simp, grind =] theorem leaveSt_nc (s : St) (u : Nat) : (leaveSt s u).nc = s.nc := rfl
@[simp, grind =] theorem leaveSt_objs (s : St) (u : Nat) : (leaveSt s u).objs = s.objs := rfl
@[simp, grind =] theorem leaveSt_ths (s : St) (u : Nat) : (leaveSt s u).ths = s.ths.filter fun x => x.uid ≠ u := rfl
@[simp, grind =] theorem leaveSt_ppend (s : St) (u : Nat) : (leaveSt s u).ppend = s.ppend := rfl
@[simp, grind =] theorem leaveSt_cur (s : St) (u : Nat) : (leaveSt s u).cur = s.cur := rfl
@[simp, grind =] theorem leaveSt_next (s : St) (u : Nat) : (leaveSt s u).next = s.next := rfl
@[simp, grind =] theorem leaveSt_execd (s : St) (u : Nat) : (leaveSt s u).execd = s.execd := rfl
@[simp, grind =] theorem leaveSt_odd (s : St) (u : Nat) : (leaveSt s u).odd = s.odd := rfl
@[simp, grind =] theorem leaveSt_log (s : St) (u : Nat) : (leaveSt s u).log = s.log := rfl

/-- A thread leaves that waited on `c`. -/
def dropSt (s : St) (c u : Nat) : St :=
  { s with
    ths := s.ths.filter fun x => x.uid ≠ u
    conds := fun i => if i = c then { s.conds c with
      timer := false, armed := (s.conds c).armed && !(s.conds c).timer, listening := false, cut := true
      refs := (s.conds c).refs - (s.conds c).timer.toNat - (s.conds c).listening.toNat - 1
      freed := decide ((s.conds c).refs - (s.conds c).timer.toNat - (s.conds c).listening.toNat = 1) } else s.conds i }

@[simp, grind =] theorem dropSt_now (s : St) (c u : Nat) : (dropSt s c u).now = s.now := rfl
@[simp, grind =] theorem dropSt_queue (s : St) (c u : Nat) : (dropSt s c u).queue = s.queue := rfl
@[simp, grind =] theorem dropSt_conds (s : St) (c u : Nat) (i : Nat) :
    (dropSt s c u).conds i = if i = c then { s.conds c with
      timer := false, armed := (s.conds c).armed && !(s.conds c).timer, listening := false, cut := true
      refs := (s.conds c).refs - (s.conds c).timer.toNat - (s.conds c).listening.toNat - 1
      freed := decide ((s.conds c).refs - (s.conds c).timer.toNat - (s.conds c).listening.toNat = 1) } else s.conds i := rfl
@[simp, grind =] theorem dropSt_nc (s : St) (c u : Nat) : (dropSt s c u).nc = s.nc := rfl
@[simp, grind =] theorem dropSt_objs (s : St) (c u : Nat) : (dropSt s c u).objs = s.objs := rfl
@[simp, grind =] theorem dropSt_ths (s : St) (c u : Nat) : (dropSt s c u).ths = s.ths.filter fun x => x.uid ≠ u := rfl
@[simp, grind =] theorem dropSt_ppend (s : St) (c u : Nat) : (dropSt s c u).ppend = s.ppend := rfl
@[simp, grind =] theorem dropSt_cur (s : St) (c u : Nat) : (dropSt s c u).cur = s.cur := rfl
@[simp, grind =] theorem dropSt_next (s : St) (c u : Nat) : (dropSt s c u).next = s.next := rfl
@[simp, grind =] theorem dropSt_execd (s : St) (c u : Nat) : (dropSt s c u).execd = s.execd := rfl
@[simp, grind =] theorem dropSt_odd (s : St) (c u : Nat) : (dropSt s c u).odd = s.odd := rfl
@[simp, grind =] theorem dropSt_log (s : St) (c u : Nat) : (dropSt s c u).log = s.log := rfl

/-- The running thread drops the condition it was resumed from. -/
def oldSt (s : St) (c u : Nat) : St :=
  { s with
    ths := s.ths.map fun x => if x.uid = u then { x with cond := none } else x
    conds := fun i => if i = c then { s.conds c with
      refs := (s.conds c).refs - 1, freed := decide ((s.conds c).refs = 1) } else s.conds i }

@[simp, grind =] theorem oldSt_now (s : St) (c u : Nat) : (oldSt s c u).now = s.now := rfl
@[simp, grind =] theorem oldSt_queue (s : St) (c u : Nat) : (oldSt s c u).queue = s.queue := rfl
@[simp, grind =] theorem oldSt_conds (s : St) (c u : Nat) (i : Nat) :
    (oldSt s c u).conds i = if i = c then { s.conds c with
      refs := (s.conds c).refs - 1, freed := decide ((s.conds c).refs = 1) } else s.conds i := rfl
@[simp, grind =] theorem oldSt_nc (s : St) (c u : Nat) : (oldSt s c u).nc = s.nc := rfl
@[simp, grind =] theorem oldSt_objs (s : St) (c u : Nat) : (oldSt s c u).objs = s.objs := rfl
@[simp, grind =] theorem oldSt_ths (s : St) (c u : Nat) : (oldSt s c u).ths = s.ths.map fun x => if x.uid = u then { x with cond := none } else x := rfl
@[simp, grind =] theorem oldSt_ppend (s : St) (c u : Nat) : (oldSt s c u).ppend = s.ppend := rfl
@[simp, grind =] theorem oldSt_cur (s : St) (c u : Nat) : (oldSt s c u).cur = s.cur := rfl
@[simp, grind =] theorem oldSt_next (s : St) (c u : Nat) : (oldSt s c u).next = s.next := rfl
@[simp, grind =] theorem oldSt_execd (s : St) (c u : Nat) : (oldSt s c u).execd = s.execd := rfl
@[simp, grind =] theorem oldSt_odd (s : St) (c u : Nat) : (oldSt s c u).odd = s.odd := rfl
@[simp, grind =] theorem oldSt_log (s : St) (c u : Nat) : (oldSt s c u).log = s.log := rfl

/-- The running thread leaves. -/
def quitSt (s : St) (u : Nat) : St := { s with ths := s.ths.filter fun x => x.uid ≠ u, cur := none }

@[simp, grind =] theorem quitSt_now (s : St) (u : Nat) : (quitSt s u).now = s.now := rfl
@[simp, grind =] theorem quitSt_queue (s : St) (u : Nat) : (quitSt s u).queue = s.queue := rfl
@[simp, grind =] theorem quitSt_conds (s : St) (u : Nat) : (quitSt s u).conds = s.conds := rfl
@[simp, grind =] theorem quitSt_nc (s : St) (u : Nat) : (quitSt s u).nc = s.nc := rfl
@[simp, grind =] theorem quitSt_objs (s : St) (u : Nat) : (quitSt s u).objs = s.objs := rfl
@[simp, grind =] theorem quitSt_ths (s : St) (u : Nat) : (quitSt s u).ths = s.ths.filter fun x => x.uid ≠ u := rfl
@[simp, grind =] theorem quitSt_ppend (s : St) (u : Nat) : (quitSt s u).ppend = s.ppend := rfl
@[simp, grind =] theorem quitSt_cur (s : St) (u : Nat) : (quitSt s u).cur = none := rfl
@[simp, grind =] theorem quitSt_next (s : St) (u : Nat) : (quitSt s u).next = s.next := rfl
@[simp, grind =] theorem quitSt_execd (s : St) (u : Nat) : (quitSt s u).execd = s.execd := rfl
@[simp, grind =] theorem quitSt_odd (s : St) (u : Nat) : (quitSt s u).odd = s.odd := rfl
@[simp, grind =] theorem quitSt_log (s : St) (u : Nat) : (quitSt s u).log = s.log := rfl

/-- A task was taken from the queue. -/
def popSt (s : St) (q : List (Nat × Task)) (x : Nat) : St := { s with queue := q, now := x }

@[simp, grind =] theorem popSt_now (s : St) (q : List (Nat × Task)) (x : Nat) : (popSt s q x).now = x := rfl
@[simp, grind =] theorem popSt_queue (s : St) (q : List (Nat × Task)) (x : Nat) : (popSt s q x).queue = q := rfl
@[simp, grind =] theorem popSt_conds (s : St) (q : List (Nat × Task)) (x : Nat) : (popSt s q x).conds = s.conds := rfl
@[simp, grind =] theorem popSt_nc (s : St) (q : List (Nat × Task)) (x : Nat) : (popSt s q x).nc = s.nc := rfl
@[simp, grind =] theorem popSt_objs (s : St) (q : List (Nat × Task)) (x : Nat) : (popSt s q x).objs = s.objs := rfl
@[simp, grind =] theorem popSt_ths (s : St) (q : List (Nat × Task)) (x : Nat) : (popSt s q x).ths = s.ths := rfl
@[simp, grind =] theorem popSt_ppend (s : St) (q : List (Nat × Task)) (x : Nat) : (popSt s q x).ppend = s.ppend := rfl
@[simp, grind =] theorem popSt_cur (s : St) (q : List (Nat × Task)) (x : Nat) : (popSt s q x).cur = s.cur := rfl
@[simp, grind =] theorem popSt_next (s : St) (q : List (Nat × Task)) (x : Nat) : (popSt s q x).next = s.next := rfl
@[simp, grind =] theorem popSt_execd (s : St) (q : List (Nat × Task)) (x : Nat) : (popSt s q x).execd = s.execd := rfl
@[simp, grind =] theorem popSt_odd (s : St) (q : List (Nat × Task)) (x : Nat) : (popSt s q x).odd = s.odd := rfl
@[simp, grind =] theorem popSt_log (s : St) (q : List (Nat × Task)) (x : Nat) : (popSt s q x).log = s.log := rfl

/-- A wakeup was taken from the queue and its reference dropped. -/
def relSt (s : St) (q : List (Nat × Task)) (x c : Nat) : St :=
  { s with
    queue := q, now := x
    conds := fun i => if i = c then { s.conds c with
      sched := false, refs := (s.conds c).refs - 1, freed := decide ((s.conds c).refs = 1) } else s.conds i }

@[simp, grind =] theorem relSt_now (s : St) (q : List (Nat × Task)) (x c : Nat) : (relSt s q x c).now = x := rfl
@[simp, grind =] theorem relSt_queue (s : St) (q : List (Nat × Task)) (x c : Nat) : (relSt s q x c).queue = q := rfl
@[simp, grind =] theorem relSt_conds (s : St) (q : List (Nat × Task)) (x c : Nat) (i : Nat) :
    (relSt s q x c).conds i = if i = c then { s.conds c with
      sched := false, refs := (s.conds c).refs - 1, freed := decide ((s.conds c).refs = 1) } else s.conds i := rfl
@[simp, grind =] theorem relSt_nc (s : St) (q : List (Nat × Task)) (x c : Nat) : (relSt s q x c).nc = s.nc := rfl
@[simp, grind =] theorem relSt_objs (s : St) (q : List (Nat × Task)) (x c : Nat) : (relSt s q x c).objs = s.objs := rfl
@[simp, grind =] theorem relSt_ths (s : St) (q : List (Nat × Task)) (x c : Nat) : (relSt s q x c).ths = s.ths := rfl
@[simp, grind =] theorem relSt_ppend (s : St) (q : List (Nat × Task)) (x c : Nat) : (relSt s q x c).ppend = s.ppend := rfl
@[simp, grind =] theorem relSt_cur (s : St) (q : List (Nat × Task)) (x c : Nat) : (relSt s q x c).cur = s.cur := rfl
@[simp, grind =] theorem relSt_next (s : St) (q : List (Nat × Task)) (x c : Nat) : (relSt s q x c).next = s.next := rfl
@[simp, grind =] theorem relSt_execd (s : St) (q : List (Nat × Task)) (x c : Nat) : (relSt s q x c).execd = s.execd := rfl
@[simp, grind =] theorem relSt_odd (s : St) (q : List (Nat × Task)) (x c : Nat) : (relSt s q x c).odd = s.odd := rfl
@[simp, grind =] theorem relSt_log (s : St) (q : List (Nat × Task)) (x c : Nat) : (relSt s q x c).log = s.log := rfl

/-- The thread that called `execve` goes on in the new program. -/
def execSt (s : St) (c u p : Nat) : St :=
  { s with
    ths := s.ths.map fun x => if x.uid = u then { x with tid := p } else x
    execd := p :: s.execd
    cur := some u
    log := s.log ++ [(u, .exec)]
    conds := fun i => if i = c then { s.conds c with
      timer := false, armed := (s.conds c).armed && !(s.conds c).timer, listening := false, cut := true
      refs := (s.conds c).refs - (s.conds c).timer.toNat - (s.conds c).listening.toNat } else s.conds i }

@[simp, grind =] theorem execSt_now (s : St) (c u p : Nat) : (execSt s c u p).now = s.now := rfl
@[simp, grind =] theorem execSt_queue (s : St) (c u p : Nat) : (execSt s c u p).queue = s.queue := rfl
@[simp, grind =] theorem execSt_conds (s : St) (c u p : Nat) (i : Nat) :
    (execSt s c u p).conds i = if i = c then { s.conds c with
      timer := false, armed := (s.conds c).armed && !(s.conds c).timer, listening := false, cut := true
      refs := (s.conds c).refs - (s.conds c).timer.toNat - (s.conds c).listening.toNat } else s.conds i := rfl
@[simp, grind =] theorem execSt_nc (s : St) (c u p : Nat) : (execSt s c u p).nc = s.nc := rfl
@[simp, grind =] theorem execSt_objs (s : St) (c u p : Nat) : (execSt s c u p).objs = s.objs := rfl
@[simp, grind =] theorem execSt_ths (s : St) (c u p : Nat) : (execSt s c u p).ths = s.ths.map fun x => if x.uid = u then { x with tid := p } else x := rfl
@[simp, grind =] theorem execSt_ppend (s : St) (c u p : Nat) : (execSt s c u p).ppend = s.ppend := rfl
@[simp, grind =] theorem execSt_cur (s : St) (c u p : Nat) : (execSt s c u p).cur = some u := rfl
@[simp, grind =] theorem execSt_next (s : St) (c u p : Nat) : (execSt s c u p).next = s.next := rfl
@[simp, grind =] theorem execSt_execd (s : St) (c u p : Nat) : (execSt s c u p).execd = p :: s.execd := rfl
@[simp, grind =] theorem execSt_odd (s : St) (c u p : Nat) : (execSt s c u p).odd = s.odd := rfl
@[simp, grind =] theorem execSt_log (s : St) (c u p : Nat) : (execSt s c u p).log = s.log ++ [(u, .exec)] := rfl

/-- The condition of a call that blocks. -/
def newCond (t : Th) (trig : Trig) (timeout : Option Nat) (held : Bool) : Cond :=
  { trig := trig, timeout := timeout, pid := t.pid, tid := t.tid, uid := t.uid, held := held
    refs := 1 + (if timeout.isSome then 1 else 0) + 1
    timer := timeout.isSome, armed := timeout.isSome, listening := true }

@[simp, grind =] theorem wait_now (s : St) (t : Th) (trig : Trig) (timeout : Option Nat) (held : Bool) : (St.wait s t trig timeout held).now = s.now := rfl
@[simp, grind =] theorem wait_queue (s : St) (t : Th) (trig : Trig) (timeout : Option Nat) (held : Bool) : (St.wait s t trig timeout held).queue = (match timeout with
      | some x => s.queue ++ [(x, .timer s.nc)]
      | none => s.queue) := rfl
@[simp, grind =] theorem wait_conds (s : St) (t : Th) (trig : Trig) (timeout : Option Nat) (held : Bool) (i : Nat) :
    (St.wait s t trig timeout held).conds i = if i = s.nc then newCond t trig timeout held else s.conds i := rfl
@[simp, grind =] theorem wait_nc (s : St) (t : Th) (trig : Trig) (timeout : Option Nat) (held : Bool) : (St.wait s t trig timeout held).nc = s.nc + 1 := rfl
@[simp, grind =] theorem wait_objs (s : St) (t : Th) (trig : Trig) (timeout : Option Nat) (held : Bool) : (St.wait s t trig timeout held).objs = s.objs := rfl
@[simp, grind =] theorem wait_ths (s : St) (t : Th) (trig : Trig) (timeout : Option Nat) (held : Bool) : (St.wait s t trig timeout held).ths = s.ths.map fun x => if x.uid = t.uid then { x with cond := some s.nc } else x := rfl
@[simp, grind =] theorem wait_ppend (s : St) (t : Th) (trig : Trig) (timeout : Option Nat) (held : Bool) : (St.wait s t trig timeout held).ppend = s.ppend := rfl
@[simp, grind =] theorem wait_cur (s : St) (t : Th) (trig : Trig) (timeout : Option Nat) (held : Bool) : (St.wait s t trig timeout held).cur = none := rfl
@[simp, grind =] theorem wait_next (s : St) (t : Th) (trig : Trig) (timeout : Option Nat) (held : Bool) : (St.wait s t trig timeout held).next = s.next := rfl
@[simp, grind =] theorem wait_execd (s : St) (t : Th) (trig : Trig) (timeout : Option Nat) (held : Bool) : (St.wait s t trig timeout held).execd = s.execd := rfl
@[simp, grind =] theorem wait_odd (s : St) (t : Th) (trig : Trig) (timeout : Option Nat) (held : Bool) : (St.wait s t trig timeout held).odd = s.odd := rfl
@[simp, grind =] theorem wait_log (s : St) (t : Th) (trig : Trig) (timeout : Option Nat) (held : Bool) : (St.wait s t trig timeout held).log = s.log := rfl

@[simp, grind =] theorem addTh_now (s : St) (p : Nat) (t : Th) : (St.addTh s p t).now = s.now := rfl
@[simp, grind =] theorem addTh_queue (s : St) (p : Nat) (t : Th) : (St.addTh s p t).queue = s.queue ++ [(s.now, .start p s.next)] := rfl
@[simp, grind =] theorem addTh_conds (s : St) (p : Nat) (t : Th) : (St.addTh s p t).conds = s.conds := rfl
@[simp, grind =] theorem addTh_nc (s : St) (p : Nat) (t : Th) : (St.addTh s p t).nc = s.nc := rfl
@[simp, grind =] theorem addTh_objs (s : St) (p : Nat) (t : Th) : (St.addTh s p t).objs = s.objs := rfl
@[simp, grind =] theorem addTh_ths (s : St) (p : Nat) (t : Th) : (St.addTh s p t).ths = s.ths ++ [{ uid := s.next, pid := p, tid := s.next, blocked := t.blocked }] := rfl
@[simp, grind =] theorem addTh_ppend (s : St) (p : Nat) (t : Th) : (St.addTh s p t).ppend = s.ppend := rfl
@[simp, grind =] theorem addTh_cur (s : St) (p : Nat) (t : Th) : (St.addTh s p t).cur = s.cur := rfl
@[simp, grind =] theorem addTh_next (s : St) (p : Nat) (t : Th) : (St.addTh s p t).next = s.next + 1 := rfl
@[simp, grind =] theorem addTh_execd (s : St) (p : Nat) (t : Th) : (St.addTh s p t).execd = s.execd := rfl
@[simp, grind =] theorem addTh_odd (s : St) (p : Nat) (t : Th) : (St.addTh s p t).odd = s.odd := rfl
@[simp, grind =] theorem addTh_log (s : St) (p : Nat) (t : Th) : (St.addTh s p t).log = s.log := rfl

/-- An `execve` is queued. -/
def pushSt (s : St) (p y : Nat) : St :=
  { s with
    queue := s.queue ++ [(s.now, Task.exec p y)]
    odd := s.odd || s.queue.any (·.2.execOf p) }

@[simp, grind =] theorem pushSt_now (s : St) (p y : Nat) : (pushSt s p y).now = s.now := rfl
@[simp, grind =] theorem pushSt_queue (s : St) (p y : Nat) : (pushSt s p y).queue = s.queue ++ [(s.now, Task.exec p y)] := rfl
@[simp, grind =] theorem pushSt_conds (s : St) (p y : Nat) : (pushSt s p y).conds = s.conds := rfl
@[simp, grind =] theorem pushSt_nc (s : St) (p y : Nat) : (pushSt s p y).nc = s.nc := rfl
@[simp, grind =] theorem pushSt_objs (s : St) (p y : Nat) : (pushSt s p y).objs = s.objs := rfl
@[simp, grind =] theorem pushSt_ths (s : St) (p y : Nat) : (pushSt s p y).ths = s.ths := rfl
@[simp, grind =] theorem pushSt_ppend (s : St) (p y : Nat) : (pushSt s p y).ppend = s.ppend := rfl
@[simp, grind =] theorem pushSt_cur (s : St) (p y : Nat) : (pushSt s p y).cur = s.cur := rfl
@[simp, grind =] theorem pushSt_next (s : St) (p y : Nat) : (pushSt s p y).next = s.next := rfl
@[simp, grind =] theorem pushSt_execd (s : St) (p y : Nat) : (pushSt s p y).execd = s.execd := rfl
@[simp, grind =] theorem pushSt_odd (s : St) (p y : Nat) : (pushSt s p y).odd = (s.odd || s.queue.any (·.2.execOf p)) := rfl
@[simp, grind =] theorem pushSt_log (s : St) (p y : Nat) : (pushSt s p y).log = s.log := rfl

/-- Signals of threads and processes change. -/
def sigSt (s : St) (f : Th → Th) (pp : List (Nat × Nat)) : St := { s with ths := s.ths.map f, ppend := pp }

@[simp, grind =] theorem sigSt_now (s : St) (f : Th → Th) (pp : List (Nat × Nat)) : (sigSt s f pp).now = s.now := rfl
@[simp, grind =] theorem sigSt_queue (s : St) (f : Th → Th) (pp : List (Nat × Nat)) : (sigSt s f pp).queue = s.queue := rfl
@[simp, grind =] theorem sigSt_conds (s : St) (f : Th → Th) (pp : List (Nat × Nat)) : (sigSt s f pp).conds = s.conds := rfl
@[simp, grind =] theorem sigSt_nc (s : St) (f : Th → Th) (pp : List (Nat × Nat)) : (sigSt s f pp).nc = s.nc := rfl
@[simp, grind =] theorem sigSt_objs (s : St) (f : Th → Th) (pp : List (Nat × Nat)) : (sigSt s f pp).objs = s.objs := rfl
@[simp, grind =] theorem sigSt_ths (s : St) (f : Th → Th) (pp : List (Nat × Nat)) : (sigSt s f pp).ths = s.ths.map f := rfl
@[simp, grind =] theorem sigSt_ppend (s : St) (f : Th → Th) (pp : List (Nat × Nat)) : (sigSt s f pp).ppend = pp := rfl
@[simp, grind =] theorem sigSt_cur (s : St) (f : Th → Th) (pp : List (Nat × Nat)) : (sigSt s f pp).cur = s.cur := rfl
@[simp, grind =] theorem sigSt_next (s : St) (f : Th → Th) (pp : List (Nat × Nat)) : (sigSt s f pp).next = s.next := rfl
@[simp, grind =] theorem sigSt_execd (s : St) (f : Th → Th) (pp : List (Nat × Nat)) : (sigSt s f pp).execd = s.execd := rfl
@[simp, grind =] theorem sigSt_odd (s : St) (f : Th → Th) (pp : List (Nat × Nat)) : (sigSt s f pp).odd = s.odd := rfl
@[simp, grind =] theorem sigSt_log (s : St) (f : Th → Th) (pp : List (Nat × Nat)) : (sigSt s f pp).log = s.log := rfl

end Shadow.Wake
