import Verif.Logger.Model
/-!
# C79: every record is logged once, in order, and a flush waits for all of them
-/
namespace Shadow.Logger

/-! ## The specification -/

inductive Run (cfg : Cfg) : St → Prop where
  | init : Run cfg init
  | step {s s' : St} {a : Act} : Run cfg s → step cfg s a = some s' → Run cfg s'

/-- Some steps, one after the other. -/
inductive Path (cfg : Cfg) : St → List Act → St → Prop where
  | nil (s : St) : Path cfg s [] s
  | cons {s s1 s2 : St} {a : Act} {as : List Act} : step cfg s a = some s1 → Path cfg s1 as s2 → Path cfg s (a :: as) s2

/-- The lines for these records: each on the standard output, and errors also on standard error, right after. -/
def render (report : Bool) : List Rec → List Line
  | [] => []
  | r :: rs => if report ∧ r.level ≤ 1 then .out r :: .err r :: render report rs else .out r :: render report rs

/-- The records of a stream of lines. -/
def recs : List Line → List Rec
  | [] => []
  | .out r :: ls => r :: recs ls
  | .err _ :: ls => recs ls

/-! ## Lemmas -/

theorem upd_self {α β : Type} [DecidableEq α] (f : α → β) (a : α) (b : β) : upd f a b a = b := if_pos rfl
theorem upd_ne {α β : Type} [DecidableEq α] (f : α → β) {a x : α} (b : β) (h : x ≠ a) : upd f a b x = f x := if_neg h

theorem upd_apply {α β : Type} [DecidableEq α] (f : α → β) (a : α) (b : β) (x : α) : upd f a b x = if x = a then b else f x := rfl

theorem recs_append (a b : List Line) : recs (a ++ b) = recs a ++ recs b := by
  induction a with
  | nil => rfl
  | cons x a ih => cases x <;> simp [recs, ih]

theorem recs_map (l : List Rec) : recs (l.map Line.out) = l := by
  induction l with
  | nil => rfl
  | cons x l ih => simp [recs, ih]

theorem render_append (b : Bool) (x y : List Rec) : render b (x ++ y) = render b x ++ render b y := by
  induction x with
  | nil => rfl
  | cons r x ih =>
    simp only [List.cons_append, render]
    split <;> simp [ih]

theorem recs_render (b : Bool) (x : List Rec) : recs (render b x) = x := by
  induction x with
  | nil => rfl
  | cons r x ih =>
    simp only [render]
    split <;> simp [recs, ih]

/-- No record of these is reported twice. -/
def Quiet (b : Bool) (l : List Rec) : Prop := ∀ r ∈ l, ¬ (b = true ∧ r.level ≤ 1)

theorem render_quiet {b : Bool} {l : List Rec} (h : Quiet b l) : render b l = l.map Line.out := by
  induction l with
  | nil => rfl
  | cons r l ih =>
    simp only [render]
    rw [if_neg (h r (by simp)), ih fun x hx => h x (by simp [hx])]
    rfl

/-- What the holder of the lock has in its buffer. -/
def St.buf (s : St) : List Rec :=
  match s.lock with
  | none => []
  | some f => match s.fl f with
    | .writing _ b _ => b
    | _ => []

def FPc.carry : FPc → Option Nat
  | .counted _ c => c
  | .writing _ _ c => c
  | _ => none

def FPc.isWriting : FPc → Bool
  | .writing .. => true
  | _ => false

def TPc.waits : TPc → Bool
  | .full _ => true
  | .wait => true
  | _ => false

def TPc.pending : TPc → List Rec
  | .push r => [r]
  | .full r => [r]
  | _ => []

/-- The threads that the logger thread has to answer. -/
def St.pend (s : St) : List Nat := (s.fl none).carry.toList ++ s.cmds.filterMap id

/-- How many records the present flush of the logger thread will have written at its end, at least. -/
def reach (s : St) : FPc → Nat
  | .counted n _ => (recs s.out).length + s.buf.length + n
  | .writing n b _ => (recs s.out).length + b.length + n
  | _ => 0

structure Inv (cfg : Cfg) (s : St) : Prop where
  hold : ∀ f, (s.fl f).isWriting = true ↔ s.lock = some f
  order : s.failed = false → recs s.out ++ s.buf ++ s.q = s.hist
  out : s.failed = false → s.out = render cfg.report (recs s.out)
  quiet : Quiet cfg.report s.buf
  cap : s.q.length ≤ cfg.cap
  tid : ∀ t r, r ∈ (s.th t).pending → r.tid = t
  mine : s.failed = false → ∀ t, s.logged t = s.hist.filter (fun r => r.tid == t) ++ (s.th t).pending
  nodup : s.pend.Nodup
  pends : ∀ t, t ∈ s.pend → (s.th t).waits = true ∧ s.done t = false ∧ s.gone t = false
  hooks : ∀ t, (s.fl (some t)).carry = none
  alive : s.failed = false → (∀ f, s.fl f ≠ .dead) ∧ (∀ t, (s.th t).waits = true → s.done t = false → t ∈ s.pend ∧ s.gone t = false)
  since : ∀ t, (s.th t).waits = true → s.since t ≤ s.hist.length
  reach : s.failed = false → ∀ t, (s.fl none).carry = some t → s.since t ≤ reach s (s.fl none)
  fin : s.failed = false → ∀ t, (s.th t).waits = true → s.done t = true → s.since t ≤ (recs s.out).length

theorem inv_init (cfg : Cfg) : Inv cfg init where
  hold _ := by simp [init, FPc.isWriting]
  order _ := rfl
  out _ := rfl
  quiet _ h := by cases h
  cap := Nat.zero_le _
  tid _ _ h := by cases h
  mine _ _ := rfl
  nodup := by simp [St.pend, init, FPc.carry]
  pends _ h := by simp [St.pend, init, FPc.carry] at h
  hooks _ := rfl
  alive _ := ⟨fun _ => by simp [init], fun _ h => by simp [init, TPc.waits] at h⟩
  since _ h := by simp [init, TPc.waits] at h
  reach _ _ h := by simp [init, FPc.carry] at h
  fin _ _ h := by simp [init, TPc.waits] at h

theorem buf_idle {s : St} (h : s.lock = none) : s.buf = [] := by unfold St.buf; rw [h]

theorem buf_held {s : St} {f : Who} {n : Nat} {b : List Rec} {c : Option Nat} (h : s.lock = some f) (hf : s.fl f = .writing n b c) : s.buf = b := by unfold St.buf; simp only [h, hf]

theorem inv_ask {cfg : Cfg} {s : St} (i : Inv cfg s) {t : Nat} {pc : TPc} (hw : (s.th t).waits = false) (hpw : pc.waits = true) (hp : pc.pending = (s.th t).pending) :
    Inv cfg { s.ask t with th := upd s.th t pc } := by
  have hnot : t ∉ s.pend := fun c => by have := (i.pends t c).1; rw [hw] at this; cases this
  have hpend : ({ s.ask t with th := upd s.th t pc } : St).pend = s.pend ++ [t] := by
    simp [St.pend, St.ask]
  constructor
  case hold => exact i.hold
  case order => exact i.order
  case out => exact i.out
  case quiet => exact i.quiet
  case cap => exact i.cap
  case tid =>
    intro u r hr
    by_cases c : u = t
    · subst c; simp only [upd_self, hp] at hr; exact i.tid u r hr
    · simp only [upd_ne _ _ c] at hr; exact i.tid u r hr
  case mine =>
    intro hf u
    by_cases c : u = t
    · subst c; simp only [upd_self, hp]; exact i.mine hf u
    · simp only [upd_ne _ _ c]; exact i.mine hf u
  case nodup =>
    rw [hpend]
    refine List.nodup_append.mpr ⟨i.nodup, by simp, fun x hx y hy => ?_⟩
    simp at hy; subst hy
    rintro rfl; exact hnot hx
  case pends =>
    intro u hu
    rw [hpend] at hu
    by_cases c : u = t
    · subst c; exact ⟨by simp only [upd_self]; exact hpw, upd_self _ _ _, upd_self _ _ _⟩
    · have hu' : u ∈ s.pend := by simpa [c] using hu
      have := i.pends u hu'
      refine ⟨by simp only [upd_ne _ _ c]; exact this.1, ?_, ?_⟩
      · show upd s.done t false u = false
        rw [upd_ne _ _ c]; exact this.2.1
      · show upd s.gone t false u = false
        rw [upd_ne _ _ c]; exact this.2.2
  case hooks => exact i.hooks
  case alive =>
    intro hf
    refine ⟨(i.alive hf).1, fun u hu hd => ?_⟩
    rw [hpend]
    by_cases c : u = t
    · subst c; exact ⟨by simp, upd_self _ _ _⟩
    · simp only [upd_ne _ _ c] at hu
      have hd' : upd s.done t false u = false := hd
      rw [upd_ne _ _ c] at hd'
      have := (i.alive hf).2 u hu hd'
      refine ⟨by simp [this.1], ?_⟩
      show upd s.gone t false u = false
      rw [upd_ne _ _ c]; exact this.2
  case since =>
    intro u hu
    show upd s.since t s.hist.length u ≤ s.hist.length
    by_cases c : u = t
    · subst c; rw [upd_self]; exact Nat.le_refl _
    · rw [upd_ne _ _ c]
      simp only [upd_ne _ _ c] at hu
      exact i.since u hu
  case reach =>
    intro hf u hu
    have hu' : (s.fl none).carry = some u := hu
    have c : u ≠ t := by
      rintro rfl
      exact hnot (by unfold St.pend; rw [hu']; simp)
    show upd s.since t s.hist.length u ≤ _
    rw [upd_ne _ _ c]
    exact i.reach hf u hu'
  case fin =>
    intro hf u hu hd
    have hd' : upd s.done t false u = true := hd
    by_cases c : u = t
    · subst c; rw [upd_self] at hd'; cases hd'
    · rw [upd_ne _ _ c] at hd'
      simp only [upd_ne _ _ c] at hu
      show upd s.since t s.hist.length u ≤ _
      rw [upd_ne _ _ c]
      exact i.fin hf u hu hd'

/-- A thread moves on without asking for anything. -/
theorem inv_th {cfg : Cfg} {s : St} (i : Inv cfg s) {t : Nat} {pc : TPc} (hn : t ∉ s.pend) (hpw : pc.waits = false) (hp : pc.pending = (s.th t).pending) :
    Inv cfg { s with th := upd s.th t pc } := by
  have wait : ∀ u, (upd s.th t pc u).waits = true → u ≠ t ∧ (s.th u).waits = true := by
    intro u hu
    by_cases c : u = t
    · subst c; rw [upd_self, hpw] at hu; cases hu
    · rw [upd_ne _ _ c] at hu; exact ⟨c, hu⟩
  have pen : ∀ u, (upd s.th t pc u).pending = (s.th u).pending := by
    intro u
    by_cases c : u = t
    · subst c; rw [upd_self, hp]
    · rw [upd_ne _ _ c]
  constructor
  case hold => exact i.hold
  case order => exact i.order
  case out => exact i.out
  case quiet => exact i.quiet
  case cap => exact i.cap
  case tid => intro u r hr; simp only [pen] at hr; exact i.tid u r hr
  case mine => intro hf u; simp only [pen]; exact i.mine hf u
  case nodup => exact i.nodup
  case pends =>
    intro u hu
    have c : u ≠ t := by rintro rfl; exact hn hu
    simp only [upd_ne _ _ c]
    exact i.pends u hu
  case hooks => exact i.hooks
  case alive => intro hf; exact ⟨(i.alive hf).1, fun u hu hd => (i.alive hf).2 u (wait u hu).2 hd⟩
  case since => intro u hu; exact i.since u (wait u hu).2
  case reach => exact i.reach
  case fin => intro hf u hu hd; exact i.fin hf u (wait u hu).2 hd

/-- A flush begins. -/
theorem inv_count {cfg : Cfg} {s : St} (i : Inv cfg s) {f : Who} {c : Option Nat} {cs : List (Option Nat)} (hi : s.fl f = .idle)
    (hc : (f = none ∧ s.cmds = c :: cs) ∨ (c = none ∧ cs = s.cmds)) :
    Inv cfg { s with cmds := cs, fl := upd s.fl f (.counted s.q.length c) } := by
  have hlock : s.lock ≠ some f := fun e => by have := (i.hold f).mpr e; rw [hi] at this; cases this
  have hbuf : ({ s with cmds := cs, fl := upd s.fl f (.counted s.q.length c) } : St).buf = s.buf := by
    unfold St.buf
    cases hl : s.lock with
    | none => rfl
    | some g =>
      have : g ≠ f := by rintro rfl; exact hlock hl
      simp only [upd_ne _ _ this]
  have hpend : ({ s with cmds := cs, fl := upd s.fl f (.counted s.q.length c) } : St).pend = s.pend := by
    unfold St.pend
    rcases hc with ⟨rfl, h2⟩ | ⟨rfl, rfl⟩
    · simp only [upd_self, hi, h2, FPc.carry]
      cases c <;> simp
    · by_cases hn : f = none
      · subst hn; simp only [upd_self, hi, FPc.carry]
      · simp only [upd_ne _ _ (fun e => hn (Eq.symm e) : (none : Who) ≠ f)]
  constructor
  case hold =>
    intro g
    by_cases e : g = f
    · subst e; simp only [upd_self]; exact ⟨fun c => (by cases c), fun c => (hlock c).elim⟩
    · simp only [upd_ne _ _ e]; exact i.hold g
  case order => intro hf; rw [hbuf]; exact i.order hf
  case out => exact i.out
  case quiet => rw [hbuf]; exact i.quiet
  case cap => exact i.cap
  case tid => exact i.tid
  case mine => exact i.mine
  case nodup => rw [hpend]; exact i.nodup
  case pends => rw [hpend]; exact i.pends
  case hooks =>
    intro u
    by_cases e : some u = f
    · subst e
      rcases hc with ⟨c1, _⟩ | ⟨rfl, _⟩
      · cases c1
      · simp only [upd_self]; rfl
    · simp only [upd_ne _ _ e]; exact i.hooks u
  case alive =>
    intro hf
    refine ⟨fun g => ?_, by rw [hpend]; exact (i.alive hf).2⟩
    by_cases e : g = f
    · subst e; simp only [upd_self]; simp
    · simp only [upd_ne _ _ e]; exact (i.alive hf).1 g
  case since => exact i.since
  case reach =>
    intro hf u hu
    by_cases e : (none : Who) = f
    · subst e
      simp only [upd_self] at hu ⊢
      have hu' : c = some u := hu
      subst hu'
      show s.since u ≤ (recs s.out).length + _ + s.q.length
      rw [hbuf]
      have hm : u ∈ s.pend := by rw [← hpend]; unfold St.pend; simp [upd_self, FPc.carry]
      have h1 := i.since u (i.pends u hm).1
      have h2 := i.order hf
      rw [← h2] at h1
      simp only [List.length_append] at h1
      exact h1
    · simp only [upd_ne _ _ e] at hu ⊢
      have := i.reach hf u hu
      cases hfl : s.fl none with
      | idle => rw [hfl] at hu; cases hu
      | dead => rw [hfl] at hu; cases hu
      | counted n c' => rw [hfl] at this; show s.since u ≤ (recs s.out).length + _ + n; rw [hbuf]; exact this
      | writing n b c' => rw [hfl] at this; exact this
  case fin => exact i.fin

theorem inv_lock {cfg : Cfg} {s : St} (i : Inv cfg s) {f : Who} {n : Nat} {c : Option Nat} (hl : s.lock = none) (hc : s.fl f = .counted n c) :
    Inv cfg { s with lock := some f, fl := upd s.fl f (.writing n [] c) } := by
  have hb := buf_idle hl
  have hbuf : ({ s with lock := some f, fl := upd s.fl f (.writing n [] c) } : St).buf = [] := buf_held (n := n) (c := c) rfl (by simp only [upd_self])
  have hpend : ({ s with lock := some f, fl := upd s.fl f (.writing n [] c) } : St).pend = s.pend := by
    unfold St.pend
    by_cases e : (none : Who) = f
    · subst e; simp only [upd_self, hc, FPc.carry]
    · simp only [upd_ne _ _ e]
  constructor
  case hold =>
    intro g
    by_cases e : g = f
    · subst e; simp only [upd_self, FPc.isWriting]
    · simp only [upd_ne _ _ e]
      rw [i.hold g, hl]
      simp only [reduceCtorEq, false_iff, Option.some.injEq]
      exact fun c => e c.symm
  case order => intro hf; rw [hbuf]; have := i.order hf; rw [hb] at this; exact this
  case out => exact i.out
  case quiet => rw [hbuf]; intro r hr; cases hr
  case cap => exact i.cap
  case tid => exact i.tid
  case mine => exact i.mine
  case nodup => rw [hpend]; exact i.nodup
  case pends => rw [hpend]; exact i.pends
  case hooks =>
    intro u
    by_cases e : some u = f
    · subst e
      have := i.hooks u
      rw [hc] at this
      simp only [upd_self]; exact this
    · simp only [upd_ne _ _ e]; exact i.hooks u
  case alive =>
    intro hf
    refine ⟨fun g => ?_, by rw [hpend]; exact (i.alive hf).2⟩
    by_cases e : g = f
    · subst e; simp only [upd_self]; simp
    · simp only [upd_ne _ _ e]; exact (i.alive hf).1 g
  case since => exact i.since
  case reach =>
    intro hf u hu
    by_cases e : (none : Who) = f
    · subst e
      simp only [upd_self] at hu ⊢
      have := i.reach hf u (by rw [hc]; exact hu)
      rw [hc] at this
      unfold Shadow.Logger.reach at this ⊢
      rw [hb] at this
      exact this
    · simp only [upd_ne _ _ e] at hu ⊢
      have := i.reach hf u hu
      cases hfl : s.fl none with
      | idle => rw [hfl] at hu; cases hu
      | dead => rw [hfl] at hu; cases hu
      | counted n c' =>
        rw [hfl] at this
        unfold Shadow.Logger.reach at this ⊢
        simp only [hbuf]
        rw [hb] at this; exact this
      | writing n b c' => rw [hfl] at this; exact this
  case fin => exact i.fin

/-- The holder of the lock takes `x` out of the queue (or nothing) and writes some of what it has. -/
theorem inv_move {cfg : Cfg} {s : St} (i : Inv cfg s) {f : Who} {n n' : Nat} {b b' x q' : List Rec} {ls : List Line} {c : Option Nat} (hc : s.fl f = .writing n b c)
    (hq : s.q = x ++ q') (hn : n = n' + x.length ∨ q' = []) (hls : recs ls ++ b' = b ++ x) (hr : ls = render cfg.report (recs ls)) (hquiet : Quiet cfg.report b') :
    Inv cfg { s with q := q', out := s.out ++ ls, fl := upd s.fl f (.writing n' b' c) } := by
  have hl : s.lock = some f := (i.hold f).mp (by rw [hc]; rfl)
  have hb := buf_held hl hc
  have hbuf : ({ s with q := q', out := s.out ++ ls, fl := upd s.fl f (.writing n' b' c) } : St).buf = b' := buf_held (n := n') (c := c) hl (by simp only [upd_self])
  have hpend : ({ s with q := q', out := s.out ++ ls, fl := upd s.fl f (.writing n' b' c) } : St).pend = s.pend := by
    unfold St.pend
    by_cases e : (none : Who) = f
    · subst e; simp only [upd_self, hc, FPc.carry]
    · simp only [upd_ne _ _ e]
  have hlen : (recs ls).length + b'.length = b.length + x.length := by
    have := congrArg List.length hls
    simpa using this
  constructor
  case hold =>
    intro g
    by_cases e : g = f
    · subst e; simp only [upd_self]; exact ⟨fun _ => hl, fun _ => rfl⟩
    · simp only [upd_ne _ _ e]; exact i.hold g
  case order =>
    intro hf
    rw [hbuf]
    have := i.order hf
    rw [hb, hq] at this
    show recs (s.out ++ ls) ++ b' ++ q' = s.hist
    rw [recs_append, List.append_assoc (recs s.out), hls, ← this]
    simp
  case out =>
    intro hf
    show s.out ++ ls = render cfg.report (recs (s.out ++ ls))
    rw [recs_append, render_append, ← i.out hf, ← hr]
  case quiet => rw [hbuf]; exact hquiet
  case cap => have := i.cap; rw [hq] at this; simp at this; show q'.length ≤ _; omega
  case tid => exact i.tid
  case mine => exact i.mine
  case nodup => rw [hpend]; exact i.nodup
  case pends => rw [hpend]; exact i.pends
  case hooks =>
    intro u
    by_cases e : some u = f
    · subst e
      have := i.hooks u
      rw [hc] at this
      simp only [upd_self]; exact this
    · simp only [upd_ne _ _ e]; exact i.hooks u
  case alive =>
    intro hf
    refine ⟨fun g => ?_, by rw [hpend]; exact (i.alive hf).2⟩
    by_cases e : g = f
    · subst e; simp only [upd_self]; simp
    · simp only [upd_ne _ _ e]; exact (i.alive hf).1 g
  case since => exact i.since
  case reach =>
    intro hf u hu
    by_cases e : (none : Who) = f
    · subst e
      simp only [upd_self] at hu ⊢
      have hcar : (s.fl none).carry = some u := by rw [hc]; exact hu
      have := i.reach hf u hcar
      rw [hc] at this
      unfold Shadow.Logger.reach at this ⊢
      simp only [recs_append, List.length_append] at this ⊢
      rcases hn with hn | hn
      · omega
      · subst hn
        have h1 := i.order hf
        have hm : u ∈ s.pend := by unfold St.pend; rw [hcar]; simp
        have h2 := i.since u (i.pends u hm).1
        rw [← h1, hb, hq] at h2
        simp at h2
        omega
    · simp only [upd_ne _ _ e] at hu ⊢
      have := i.reach hf u hu
      cases hfl : s.fl none with
      | idle => rw [hfl] at hu; cases hu
      | dead => rw [hfl] at hu; cases hu
      | counted n c' =>
        rw [hfl] at this
        unfold Shadow.Logger.reach at this ⊢
        simp only [hbuf, recs_append, List.length_append]
        simp only [hb] at this; omega
      | writing n b c' =>
        have := (i.hold none).mp (by rw [hfl]; rfl)
        rw [hl, Option.some.injEq] at this
        exact (e this.symm).elim
  case fin =>
    intro hf u hu hd
    have := i.fin hf u hu hd
    simp only [recs_append, List.length_append]
    show s.since u ≤ _
    omega

/-- The holder gives the lock back: `fail` says whether it could write. -/
theorem inv_finish {cfg : Cfg} {s : St} (i : Inv cfg s) {f : Who} {b : List Rec} {c : Option Nat} (hc : s.fl f = .writing 0 b c) :
    Inv cfg ({ s with out := s.out ++ b.map Line.out, fl := upd s.fl f .idle, lock := none }.answer c) := by
  have hl : s.lock = some f := (i.hold f).mp (by rw [hc]; rfl)
  have hb := buf_held hl hc
  have hquiet := i.quiet
  rw [hb] at hquiet
  have hold : ∀ g, (upd s.fl f .idle g).isWriting = true ↔ (none : Option Who) = some g := by
    intro g
    simp only [reduceCtorEq, iff_false]
    by_cases e : g = f
    · subst e; rw [upd_self]; simp [FPc.isWriting]
    · rw [upd_ne _ _ e, i.hold g, hl, Option.some.injEq]; exact fun c => e c.symm
  have hooks : ∀ u : Nat, (upd s.fl f .idle (some u)).carry = none := by
    intro u
    by_cases e : some u = f
    · subst e; rw [upd_self]; rfl
    · rw [upd_ne _ _ e]; exact i.hooks u
  have dead : s.failed = false → ∀ g, upd s.fl f .idle g ≠ .dead := by
    intro hf g
    by_cases e : g = f
    · subst e; rw [upd_self]; simp
    · rw [upd_ne _ _ e]; exact (i.alive hf).1 g
  have hrecs : recs (s.out ++ b.map Line.out) = recs s.out ++ b := by rw [recs_append, recs_map]
  have order : s.failed = false → recs (s.out ++ b.map Line.out) ++ [] ++ s.q = s.hist := by
    intro hf
    rw [hrecs, List.append_nil]
    have := i.order hf
    rwa [hb] at this
  have out : s.failed = false → s.out ++ b.map Line.out = render cfg.report (recs (s.out ++ b.map Line.out)) := by
    intro hf
    rw [hrecs, render_append, ← i.out hf, render_quiet hquiet]
  have fin : s.failed = false → ∀ u, (s.th u).waits = true → s.done u = true → s.since u ≤ (recs (s.out ++ b.map Line.out)).length := by
    intro hf u hu hd
    have := i.fin hf u hu hd
    rw [hrecs, List.length_append]; omega
  have reach' : s.failed = false → ∀ u, (upd s.fl f .idle none).carry = some u →
      s.since u ≤ Shadow.Logger.reach { s with out := s.out ++ b.map Line.out, fl := upd s.fl f .idle, lock := none } (upd s.fl f .idle none) := by
    intro hf u hu
    by_cases hne : f = none
    · subst hne; rw [upd_self] at hu; cases hu
    · rw [upd_ne _ _ (fun e => hne e.symm)] at hu ⊢
      have := i.reach hf u hu
      have h0 : ({ s with out := s.out ++ b.map Line.out, fl := upd s.fl f .idle, lock := none } : St).buf = [] := buf_idle rfl
      cases hfl : s.fl none with
      | idle => rw [hfl] at hu; cases hu
      | dead => rw [hfl] at hu; cases hu
      | counted n c' =>
        rw [hfl] at this
        unfold Shadow.Logger.reach at this ⊢
        simp only [hb] at this
        simp only [h0, hrecs, List.length_append, List.length_nil]
        omega
      | writing n b' c' =>
        have := (i.hold none).mp (by rw [hfl]; rfl)
        rw [hl, Option.some.injEq] at this
        exact (hne this).elim
  cases c with
  | none =>
    have hpend : ({ s with out := s.out ++ b.map Line.out, fl := upd s.fl f .idle, lock := none } : St).pend = s.pend := by
      unfold St.pend
      by_cases e : (none : Who) = f
      · subst e; simp only [upd_self, hc, FPc.carry]
      · simp only [upd_ne _ _ e]
    show Inv cfg { s with out := s.out ++ b.map Line.out, fl := upd s.fl f .idle, lock := none }
    exact { hold, order, out, quiet := fun r hr => (by cases hr), cap := i.cap, tid := i.tid, mine := i.mine, nodup := by rw [hpend]; exact i.nodup,
            pends := by rw [hpend]; exact i.pends, hooks, alive := fun hf => ⟨dead hf, by rw [hpend]; exact (i.alive hf).2⟩, since := i.since,
            reach := reach', fin }
  | some t =>
    have hf : f = none := by
      cases f with
      | none => rfl
      | some u => have := i.hooks u; rw [hc] at this; cases this
    subst hf
    have hpend : s.pend = t :: s.cmds.filterMap id := by unfold St.pend; rw [hc]; rfl
    have hpend' : ({ s with out := s.out ++ b.map Line.out, fl := upd s.fl none .idle, lock := none, done := upd s.done t true } : St).pend = s.cmds.filterMap id := by
      unfold St.pend; simp only [upd_self]; rfl
    have hnd := i.nodup
    rw [hpend, List.nodup_cons] at hnd
    show Inv cfg { s with out := s.out ++ b.map Line.out, fl := upd s.fl none .idle, lock := none, done := upd s.done t true }
    refine { hold, order, out, quiet := fun r hr => (by cases hr), cap := i.cap, tid := i.tid, mine := i.mine, nodup := ?_,
             pends := ?_, hooks, alive := ?_, since := i.since, reach := reach', fin := ?_ }
    · rw [hpend']; exact hnd.2
    · intro u hu
      rw [hpend'] at hu
      have c : u ≠ t := by rintro rfl; exact hnd.1 hu
      simp only [upd_ne _ _ c]
      exact i.pends u (by rw [hpend]; simp only [List.mem_cons]; exact .inr hu)
    · intro hf
      refine ⟨dead hf, fun u hu hd => ?_⟩
      have c : u ≠ t := by rintro rfl; simp only [upd_self] at hd; cases hd
      simp only [upd_ne _ _ c] at hd
      have := (i.alive hf).2 u hu hd
      refine ⟨?_, this.2⟩
      rw [hpend']
      have h1 := this.1
      rw [hpend, List.mem_cons] at h1
      exact h1.resolve_left c
    · intro hf u hu hd
      by_cases c : u = t
      · subst c
        have := i.reach hf u (by rw [hc]; rfl)
        rw [hc] at this
        unfold Shadow.Logger.reach at this
        show s.since u ≤ (recs (s.out ++ b.map Line.out)).length
        rw [hrecs, List.length_append]
        omega
      · simp only [upd_ne _ _ c] at hd
        exact fin hf u hu hd

theorem inv_fail {cfg : Cfg} {s : St} (i : Inv cfg s) {f : Who} {n : Nat} {b : List Rec} {c : Option Nat} (hc : s.fl f = .writing n b c) :
    Inv cfg ({ s with fl := upd s.fl f (if f = none then .dead else .idle), lock := none, failed := true }.drop c) := by
  have hl : s.lock = some f := (i.hold f).mp (by rw [hc]; rfl)
  have hold : ∀ g, (upd s.fl f (if f = none then .dead else .idle) g).isWriting = true ↔ (none : Option Who) = some g := by
    intro g
    simp only [reduceCtorEq, iff_false]
    by_cases e : g = f
    · subst e; rw [upd_self]; split <;> simp [FPc.isWriting]
    · rw [upd_ne _ _ e, i.hold g, hl, Option.some.injEq]; exact fun c => e c.symm
  have hooks : ∀ u : Nat, (upd s.fl f (if f = none then .dead else .idle) (some u)).carry = none := by
    intro u
    by_cases e : some u = f
    · subst e; rw [upd_self]; rfl
    · rw [upd_ne _ _ e]; exact i.hooks u
  cases c with
  | none =>
    have hpend : ({ s with fl := upd s.fl f (if f = none then .dead else .idle), lock := none, failed := true } : St).pend = s.pend := by
      unfold St.pend
      by_cases e : (none : Who) = f
      · subst e; simp only [upd_self, hc, if_true, FPc.carry]
      · simp only [upd_ne _ _ e]
    show Inv cfg { s with fl := upd s.fl f (if f = none then .dead else .idle), lock := none, failed := true }
    exact { hold, order := (nofun), out := (nofun), quiet := fun r hr => (by cases hr), cap := i.cap, tid := i.tid, mine := (nofun), nodup := by rw [hpend]; exact i.nodup,
            pends := by rw [hpend]; exact i.pends, hooks, alive := (nofun), since := i.since, reach := (nofun), fin := (nofun) }
  | some t =>
    have hf : f = none := by
      cases f with
      | none => rfl
      | some u => have := i.hooks u; rw [hc] at this; cases this
    subst hf
    have hpend : s.pend = t :: s.cmds.filterMap id := by unfold St.pend; rw [hc]; rfl
    have hpend' : ({ s with fl := upd s.fl none (if (none : Who) = none then .dead else .idle), lock := none, failed := true, gone := upd s.gone t true } : St).pend = s.cmds.filterMap id := by
      unfold St.pend; simp only [upd_self]; rfl
    have hnd := i.nodup
    rw [hpend, List.nodup_cons] at hnd
    show Inv cfg { s with fl := upd s.fl none (if (none : Who) = none then .dead else .idle), lock := none, failed := true, gone := upd s.gone t true }
    refine { hold, order := (nofun), out := (nofun), quiet := fun r hr => (by cases hr), cap := i.cap, tid := i.tid, mine := (nofun), nodup := ?_,
             pends := ?_, hooks, alive := (nofun), since := i.since, reach := (nofun), fin := (nofun) }
    · rw [hpend']; exact hnd.2
    · intro u hu
      rw [hpend'] at hu
      have c : u ≠ t := by rintro rfl; exact hnd.1 hu
      simp only [upd_ne _ _ c]
      exact i.pends u (by rw [hpend]; simp only [List.mem_cons]; exact .inr hu)

theorem inv_log {cfg : Cfg} {s : St} (i : Inv cfg s) {t : Nat} {r : Rec} (hi : s.th t = .idle) (hr : r.tid = t) :
    Inv cfg { s with th := upd s.th t (.push r), logged := upd s.logged t (s.logged t ++ [r]) } := by
  have wait : ∀ u, (upd s.th t (.push r) u).waits = true → (s.th u).waits = true := by
    intro u hu
    by_cases c : u = t
    · subst c; rw [upd_self] at hu; cases hu
    · rwa [upd_ne _ _ c] at hu
  constructor
  case hold => exact i.hold
  case order => exact i.order
  case out => exact i.out
  case quiet => exact i.quiet
  case cap => exact i.cap
  case tid =>
    intro u x hx
    by_cases c : u = t
    · subst c
      simp only [upd_self, TPc.pending, List.mem_singleton] at hx
      rw [hx]; exact hr
    · simp only [upd_ne _ _ c] at hx; exact i.tid u x hx
  case mine =>
    intro hf u
    by_cases c : u = t
    · subst c
      simp only [upd_self]
      have := i.mine hf u
      rw [hi] at this
      rw [this]
      simp [TPc.pending]
    · simp only [upd_ne _ _ c]; exact i.mine hf u
  case nodup => exact i.nodup
  case pends =>
    intro u hu
    have := i.pends u hu
    have c : u ≠ t := by rintro rfl; rw [hi] at this; cases this.1
    simp only [upd_ne _ _ c]
    exact this
  case hooks => exact i.hooks
  case alive => intro hf; exact ⟨(i.alive hf).1, fun u hu hd => (i.alive hf).2 u (wait u hu) hd⟩
  case since => intro u hu; exact i.since u (wait u hu)
  case reach => exact i.reach
  case fin => intro hf u hu hd; exact i.fin hf u (wait u hu) hd

theorem inv_push {cfg : Cfg} {s : St} (i : Inv cfg s) {t : Nat} {r : Rec} (hi : s.th t = .push r) (hq : s.q.length < cfg.cap) :
    Inv cfg { s with q := s.q ++ [r], hist := s.hist ++ [r], th := upd s.th t (.pushed r) } := by
  have hr : r.tid = t := i.tid t r (by rw [hi]; simp [TPc.pending])
  have wait : ∀ u, (upd s.th t (.pushed r) u).waits = true → (s.th u).waits = true := by
    intro u hu
    by_cases c : u = t
    · subst c; rw [upd_self] at hu; cases hu
    · rwa [upd_ne _ _ c] at hu
  constructor
  case hold => exact i.hold
  case order =>
    intro hf
    show recs s.out ++ s.buf ++ (s.q ++ [r]) = s.hist ++ [r]
    rw [← List.append_assoc, i.order hf]
  case out => exact i.out
  case quiet => exact i.quiet
  case cap => simp; omega
  case tid =>
    intro u x hx
    by_cases c : u = t
    · subst c
      simp only [upd_self, TPc.pending] at hx
      cases hx
    · simp only [upd_ne _ _ c] at hx; exact i.tid u x hx
  case mine =>
    intro hf u
    have := i.mine hf u
    by_cases c : u = t
    · subst c
      simp only [upd_self]
      rw [hi] at this
      rw [this]
      simp [TPc.pending, hr, List.filter_append]
    · simp only [upd_ne _ _ c]
      rw [this]
      have : ¬ r.tid = u := by rw [hr]; exact fun e => c e.symm
      simp [List.filter_append, this]
  case nodup => exact i.nodup
  case pends =>
    intro u hu
    have := i.pends u hu
    have c : u ≠ t := by rintro rfl; rw [hi] at this; cases this.1
    simp only [upd_ne _ _ c]
    exact this
  case hooks => exact i.hooks
  case alive => intro hf; exact ⟨(i.alive hf).1, fun u hu hd => (i.alive hf).2 u (wait u hu) hd⟩
  case since => intro u hu; have := i.since u (wait u hu); simp; omega
  case reach => exact i.reach
  case fin => intro hf u hu hd; exact i.fin hf u (wait u hu) hd

/-- A flush that nobody waits for is asked for. -/
theorem inv_async {cfg : Cfg} {s : St} (i : Inv cfg s) : Inv cfg { s with cmds := s.cmds ++ [none] } := by
  have hpend : ({ s with cmds := s.cmds ++ [none] } : St).pend = s.pend := by simp [St.pend]
  exact { hold := i.hold, order := i.order, out := i.out, quiet := i.quiet, cap := i.cap, tid := i.tid, mine := i.mine, nodup := by rw [hpend]; exact i.nodup,
          pends := by rw [hpend]; exact i.pends, hooks := i.hooks, alive := by rw [hpend]; exact i.alive, since := i.since, reach := i.reach, fin := i.fin }

/-- A waiting thread is told that its answer will never come: it panics. -/
theorem inv_gone {cfg : Cfg} {s : St} (i : Inv cfg s) {t : Nat} (hw : (s.th t).waits = true) (hd : s.done t = false) (hg : s.gone t = true) :
    Inv cfg { s with th := upd s.th t .idle } := by
  have hf : s.failed = true := by
    cases e : s.failed with
    | true => rfl
    | false => have := ((i.alive e).2 t hw hd).2; rw [hg] at this; cases this
  have no : ∀ {P : Prop}, s.failed = false → P := fun e => by rw [hf] at e; cases e
  have hn : t ∉ s.pend := fun c => by have := (i.pends t c).2.2; rw [hg] at this; cases this
  refine { hold := i.hold, order := i.order, out := i.out, quiet := i.quiet, cap := i.cap, tid := ?_, mine := no, nodup := i.nodup,
           pends := ?_, hooks := i.hooks, alive := no, since := ?_, reach := no, fin := no }
  · intro u x hx
    by_cases c : u = t
    · subst c; simp only [upd_self, TPc.pending] at hx; cases hx
    · simp only [upd_ne _ _ c] at hx; exact i.tid u x hx
  · intro u hu
    have c : u ≠ t := by rintro rfl; exact hn hu
    simp only [upd_ne _ _ c]
    exact i.pends u hu
  · intro u hu
    by_cases c : u = t
    · subst c; simp only [upd_self] at hu; cases hu
    · simp only [upd_ne _ _ c] at hu; exact i.since u hu

theorem notPend {cfg : Cfg} {s : St} (i : Inv cfg s) {t : Nat} (hw : (s.th t).waits = false) : t ∉ s.pend :=
  fun c => by have := (i.pends t c).1; rw [hw] at this; cases this

/-- A hook of a thread that logs or waits does not run. -/
def Hooks (s : St) : Prop := ∀ t, s.th t ≠ .idle → s.fl (some t) = .idle

theorem step_inv {cfg : Cfg} {s s' : St} {a : Act} (i : Inv cfg s) (k : Hooks s) (h : step cfg s a = some s') : Inv cfg s' := by
  cases a with
  | log t r host =>
    simp only [step] at h
    split at h
    · rename_i c
      split at h
      · injection h with h; subst h; exact inv_log i c.1 c.2.2
      · injection h with h; subst h; exact i
    · cases h
  | push t =>
    simp only [step] at h
    split at h
    · rename_i r hr
      split at h
      · injection h with h; subst h; exact inv_push i hr (by assumption)
      · injection h with h; subst h; exact inv_ask i (by rw [hr]; rfl) rfl (by rw [hr]; rfl)
    · cases h
  | decide t =>
    simp only [step] at h
    split at h
    · rename_i r hr
      split at h
      · injection h with h; subst h; exact inv_ask i (by rw [hr]; rfl) rfl (by rw [hr]; rfl)
      · have i1 := inv_th i (t := t) (pc := .idle) (notPend i (by rw [hr]; rfl)) rfl (by rw [hr]; rfl)
        split at h
        · injection h with h; subst h; exact inv_async i1
        · injection h with h; subst h; exact i1
    · cases h
  | flush t =>
    simp only [step] at h
    split at h
    · rename_i c; injection h with h; subst h; exact inv_ask i (by rw [c.1]; rfl) rfl (by rw [c.1]; rfl)
    · cases h
  | resume t =>
    simp only [step] at h
    split at h
    · rename_i hd
      have hn : t ∉ s.pend := fun c => by have := (i.pends t c).2.1; rw [hd] at this; cases this
      split at h
      · rename_i r hr; injection h with h; subst h; exact inv_th i hn rfl (by rw [hr]; rfl)
      · rename_i hr; injection h with h; subst h; exact inv_th i hn rfl (by rw [hr]; rfl)
      · cases h
    · rename_i hd
      have hd' : s.done t = false := by simpa using hd
      split at h
      · rename_i hg
        split at h
        · rename_i r hr; injection h with h; subst h
          exact inv_count (s := { s with th := upd s.th t .idle }) (inv_gone i (by rw [hr]; rfl) hd' hg) (k t (by rw [hr]; simp)) (.inr ⟨rfl, rfl⟩)
        · rename_i hr; injection h with h; subst h
          exact inv_count (s := { s with th := upd s.th t .idle }) (inv_gone i (by rw [hr]; rfl) hd' hg) (k t (by rw [hr]; simp)) (.inr ⟨rfl, rfl⟩)
        · cases h
      · cases h
  | setBuffering b =>
    simp only [step] at h
    injection h with h; subst h
    exact { hold := i.hold, order := i.order, out := i.out, quiet := i.quiet, cap := i.cap, tid := i.tid, mine := i.mine, nodup := i.nodup,
            pends := i.pends, hooks := i.hooks, alive := i.alive, since := i.since, reach := i.reach, fin := i.fin }
  | recv =>
    simp only [step] at h
    split at h
    · rename_i c cs hi hc; injection h with h; subst h; exact inv_count i hi (.inl ⟨rfl, hc⟩)
    · cases h
  | timeout =>
    simp only [step] at h
    split at h
    · rename_i hi; injection h with h; subst h; exact inv_count i hi (.inr ⟨rfl, rfl⟩)
    · cases h
  | panic t =>
    simp only [step] at h
    split at h
    · rename_i hi; injection h with h; subst h; exact inv_count i hi.2 (.inr ⟨rfl, rfl⟩)
    · cases h
  | lock f =>
    simp only [step] at h
    split at h
    · rename_i n c hl hc; injection h with h; subst h; exact inv_lock i hl hc
    · cases h
  | pop f =>
    simp only [step] at h
    split at h
    · rename_i n b c hc
      have hl : s.lock = some f := (i.hold f).mp (by rw [hc]; rfl)
      have hquiet := i.quiet
      rw [buf_held hl hc] at hquiet
      split at h
      · rename_i hq; injection h with h; subst h
        have := inv_move (n' := 0) (b' := b) (x := []) (q' := []) (ls := []) i hc hq (.inr rfl) (by simp [recs]) rfl hquiet
        rw [hq]
        simpa using this
      · rename_i r q hq
        split at h
        · rename_i e; injection h with h; subst h
          have e' : cfg.report = true ∧ r.level ≤ 1 := by simpa [and_comm] using e
          have := inv_move (n' := n) (b' := []) (x := [r]) (q' := q) (ls := (b ++ [r]).map Line.out ++ [.err r]) i hc hq (.inl rfl)
            (by rw [recs_append, recs_map]; simp [recs])
            (by rw [recs_append, recs_map]
                simp only [recs, List.append_nil]
                rw [render_append, render_quiet hquiet]
                simp [render, e'])
            (fun x hx => by cases hx)
          simpa using this
        · rename_i e; injection h with h; subst h
          have e' : ¬ (cfg.report = true ∧ r.level ≤ 1) := by simpa [and_comm] using e
          have := inv_move (n' := n) (b' := b ++ [r]) (x := [r]) (q' := q) (ls := []) i hc hq (.inl rfl) (by simp [recs]) rfl
            (fun x hx => by
              rcases List.mem_append.mp hx with hx | hx
              · exact hquiet x hx
              · simp at hx; subst hx; exact e')
          simpa using this
    · cases h
  | spill f k =>
    simp only [step] at h
    split at h
    · rename_i n b c hc; injection h with h; subst h
      have hl : s.lock = some f := (i.hold f).mp (by rw [hc]; rfl)
      have hquiet := i.quiet
      rw [buf_held hl hc] at hquiet
      exact inv_move (n' := n) (b' := b.drop k) (x := []) (q' := s.q) (ls := (b.take k).map Line.out) i hc rfl (.inl rfl)
        (by rw [recs_map]; simp) (by rw [recs_map, render_quiet fun x hx => hquiet x (List.mem_of_mem_take hx)])
        (fun x hx => hquiet x (List.mem_of_mem_drop hx))
    · cases h
  | finish f =>
    simp only [step] at h
    split at h
    · rename_i b c hc; injection h with h; subst h; exact inv_finish i hc
    · cases h
  | fail f =>
    simp only [step] at h
    split at h
    · rename_i n b c hc; injection h with h; subst h; exact inv_fail i hc
    · cases h

theorem step_hooks {cfg : Cfg} {s s' : St} {a : Act} (k : Hooks s) (h : step cfg s a = some s') : Hooks s' := by
  intro t
  have := k t
  cases a <;> simp only [step, St.ask] at h <;> repeat' split at h
  all_goals first
    | (cases h; done)
    | (injection h with h; subst h; (try unfold St.answer); (try unfold St.drop); (try split) <;> (try simp only [upd_apply]) <;> grind)

theorem Run.inv {cfg : Cfg} {s : St} (h : Run cfg s) : Inv cfg s ∧ Hooks s := by
  induction h with
  | init => exact ⟨inv_init cfg, fun _ _ => rfl⟩
  | step _ hs ih => exact ⟨step_inv ih.1 ih.2 hs, step_hooks ih.2 hs⟩

theorem Path.run {cfg : Cfg} {s s' : St} {as : List Act} (p : Path cfg s as s') (r : Run cfg s) : Run cfg s' := by
  induction p with
  | nil => exact r
  | cons h _ ih => exact ih (r.step h)

theorem Path.append {cfg : Cfg} {s s' s'' : St} {as bs : List Act} (p : Path cfg s as s') (q : Path cfg s' bs s'') : Path cfg s (as ++ bs) s'' := by
  induction p with
  | nil => exact q
  | cons h _ ih => exact .cons h (ih q)

/-- What one step does to a thread that waits: only its own `resume` changes anything. -/
theorem step_waits {cfg : Cfg} {s s' : St} {a : Act} {t : Nat} (hw : (s.th t).waits = true) (ha : a ≠ .resume t) (h : step cfg s a = some s') :
    s'.th t = s.th t ∧ s'.since t = s.since t := by
  have h1 : s.th t ≠ .idle := by intro e; rw [e] at hw; cases hw
  have h2 : ∀ r, s.th t ≠ .push r := by intro r e; rw [e] at hw; cases hw
  have h3 : ∀ r, s.th t ≠ .pushed r := by intro r e; rw [e] at hw; cases hw
  cases a <;> simp only [step, St.ask] at h <;> repeat' split at h
  all_goals first
    | (cases h; done)
    | (injection h with h; subst h; (try unfold St.answer); (try unfold St.drop); (try split) <;> (try simp only [upd_apply]) <;> grind)

theorem step_hist {cfg : Cfg} {s s' : St} {a : Act} (h : step cfg s a = some s') : s.hist <+: s'.hist := by
  cases a <;> simp only [step, St.ask] at h <;> repeat' split at h
  all_goals first
    | (cases h; done)
    | (injection h with h; subst h; (try unfold St.answer); (try unfold St.drop); (try split) <;> first | exact List.prefix_refl _ | exact List.prefix_append _ _)

theorem step_failed {cfg : Cfg} {s s' : St} {a : Act} (h : step cfg s a = some s') (hf : s'.failed = false) : s.failed = false := by
  cases a <;> simp only [step, St.ask] at h <;> repeat' split at h
  all_goals first
    | (cases h; done)
    | (injection h with h; subst h; revert hf; (try unfold St.answer); (try unfold St.drop); (try split) <;> first | exact id | exact fun e => by cases e)

theorem path_hist {cfg : Cfg} {s s' : St} {as : List Act} (p : Path cfg s as s') : s.hist <+: s'.hist := by
  induction p with
  | nil => exact List.prefix_refl _
  | cons h _ ih => exact (step_hist h).trans ih

theorem path_waits {cfg : Cfg} {s s' : St} {as : List Act} {t : Nat} (p : Path cfg s as s') (hw : (s.th t).waits = true) (ha : Act.resume t ∉ as) :
    s'.th t = s.th t ∧ s'.since t = s.since t := by
  induction p with
  | nil => exact ⟨rfl, rfl⟩
  | cons h _ ih =>
    simp only [List.mem_cons, not_or] at ha
    have h1 := step_waits hw (fun e => ha.1 e.symm) h
    have h2 := ih (by rw [h1.1]; exact hw) ha.2
    exact ⟨h2.1.trans h1.1, h2.2.trans h1.2⟩

theorem Run.pushed {cfg : Cfg} {s : St} (h : Run cfg s) : ∀ t r, s.th t = .pushed r → r ∈ s.hist := by
  induction h with
  | init => intro t r e; cases e
  | @step s s' a _ hs ih =>
    intro t r e
    have hp := step_hist hs
    cases a <;> simp only [Shadow.Logger.step, St.ask] at hs <;> repeat' split at hs
    all_goals first
      | (cases hs; done)
      | (injection hs with hs; subst hs; revert e hp; (try unfold St.answer); (try unfold St.drop); (try split) <;> (try simp only [upd_apply]) <;> grind)

/-! ## The theorems -/

/-- What was written is what was put into the queue, in the same order and each record once, errors twice if they are to be reported; the rest is in the buffer of the thread that writes and in the queue. -/
theorem C79_order {cfg : Cfg} {s : St} (h : Run cfg s) (hf : s.failed = false) :
    ∃ written rest, s.out = render cfg.report written ∧ s.hist = written ++ rest ++ s.q ∧ (s.lock = none → rest = []) ∧ s.q.length ≤ cfg.cap := by
  have i := h.inv.1
  exact ⟨recs s.out, s.buf, i.out hf, (i.order hf).symm, buf_idle, i.cap⟩

/-- What a thread logged went into the queue in the same order, but for a record that it still holds. -/
theorem C79_threads {cfg : Cfg} {s : St} (h : Run cfg s) (hf : s.failed = false) (t : Nat) :
    ∃ held, s.logged t = s.hist.filter (fun r => r.tid == t) ++ held ∧ held.length ≤ 1 ∧ (s.th t = .idle → held = []) := by
  refine ⟨_, h.inv.1.mine hf t, ?_, ?_⟩
  · cases s.th t <;> simp [TPc.pending]
  · intro e; rw [e]; rfl

/-- `log` drops a record that is not enabled, and takes any other. -/
theorem C79_level {cfg : Cfg} {s s' : St} {t : Nat} {r : Rec} {host : Option (Option Nat)} (h : step cfg s (.log t r host) = some s') :
    s'.logged t = s.logged t ++ (if r.level ≤ (host.join).getD cfg.maxLevel then [r] else []) := by
  simp only [step] at h
  have key : enabled cfg host r.level = decide (r.level ≤ (host.join).getD cfg.maxLevel) := by
    unfold enabled
    rcases host with _ | _ | l <;> rfl
  rw [key] at h
  split at h
  · split at h
    · rename_i c; injection h with h; subst h
      simp only [upd_self]; rw [if_pos (by simpa using c)]
    · rename_i c; injection h with h; subst h
      rw [if_neg (by simpa using c)]; simp
  · cases h

theorem flush_aux {cfg : Cfg} {s s1 s2 : St} {as : List Act} {t : Nat} (h : Run cfg s1) (hh : s1.hist = s.hist) (hs : s1.since t = s.hist.length) (hw : (s1.th t).waits = true)
    (p : Path cfg s1 as s2) (ha : Act.resume t ∉ as) (hd : s2.done t = true) (hf : s2.failed = false) :
    ∃ more, s2.out = render cfg.report (s.hist ++ more) := by
  have i := (p.run h).inv.1
  have hp := path_waits p hw ha
  have h1 := i.fin hf t (by rw [hp.1]; exact hw) hd
  rw [hp.2, hs] at h1
  have h2 : s.hist <+: s2.hist := by rw [← hh]; exact path_hist p
  have h3 : recs s2.out <+: s2.hist := by
    rw [← i.order hf, List.append_assoc]; exact List.prefix_append _ _
  obtain ⟨more, hm⟩ := List.prefix_of_prefix_length_le h2 h3 h1
  exact ⟨more, by rw [hm]; exact i.out hf⟩

/-- When `flush` returns, everything that was in the queue before, by any thread, is written. -/
theorem C79_flush {cfg : Cfg} {s s1 s2 : St} {as : List Act} {t : Nat} (h : Run cfg s) (h1 : step cfg s (.flush t) = some s1)
    (p : Path cfg s1 as s2) (ha : Act.resume t ∉ as) (hd : s2.done t = true) (hf : s2.failed = false) :
    ∃ more, s2.out = render cfg.report (s.hist ++ more) := by
  have r := h.step h1
  simp only [step] at h1
  split at h1
  · injection h1 with h1; subst h1
    exact flush_aux r rfl (upd_self _ _ _) (by simp only [upd_self]; rfl) p ha hd hf
  · cases h1

/-- When `log` returns from an error, the error is written, and so is everything that was in the queue. -/
theorem C79_error {cfg : Cfg} {s s1 s2 : St} {as : List Act} {t : Nat} {r : Rec} (h : Run cfg s) (ht : s.th t = .pushed r) (hr : r.level = 1) (h1 : step cfg s (.decide t) = some s1)
    (p : Path cfg s1 as s2) (ha : Act.resume t ∉ as) (hd : s2.done t = true) (hf : s2.failed = false) :
    r ∈ s.hist ∧ ∃ more, s2.out = render cfg.report (s.hist ++ more) := by
  refine ⟨h.pushed t r ht, ?_⟩
  have k := h.step h1
  simp only [step, ht, hr, if_true] at h1
  injection h1 with h1; subst h1
  exact flush_aux k rfl (upd_self _ _ _) (by simp only [upd_self]; rfl) p ha hd hf

/-- The answer to a flush is never lost as long as everything can be written: `recv().unwrap()` does not panic, and the logger thread lives. -/
theorem C79_safe {cfg : Cfg} {s : St} (h : Run cfg s) (hf : s.failed = false) :
    s.fl none ≠ .dead ∧ ∀ t, (s.th t).waits = true → s.done t = true ∨ s.gone t = false := by
  have i := h.inv.1
  refine ⟨(i.alive hf).1 none, fun t hw => ?_⟩
  cases hd : s.done t with
  | true => exact .inl rfl
  | false => exact .inr ((i.alive hf).2 t hw hd).2

/-- An action of a thread that writes. -/
def Act.writes : Act → Bool
  | .recv => true
  | .lock _ => true
  | .pop _ => true
  | .finish _ => true
  | _ => false

theorem drain {cfg : Cfg} (f : Who) (n : Nat) : ∀ (s : St) (b : List Rec) (c : Option Nat), s.fl f = .writing n b c →
    ∃ as s', Path cfg s as s' ∧ (∀ a ∈ as, a.writes = true) ∧ s'.lock = none ∧ s'.fl = upd s.fl f .idle ∧ s'.cmds = s.cmds ∧ s'.th = s.th ∧ s'.failed = s.failed := by
  induction n with
  | zero =>
    intro s b c hc
    refine ⟨[.finish f], _, .cons (by simp only [step, hc]; rfl) (.nil _), by simp [Act.writes], ?_⟩
    cases c <;> exact ⟨rfl, rfl, rfl, rfl, rfl⟩
  | succ n ih =>
    have upd2 : ∀ (g : Who → FPc) (x y : FPc), upd (upd g f x) f y = upd g f y := by
      intro g x y; funext z; simp only [upd_apply]; split <;> rfl
    intro s b c hc
    cases hq : s.q with
    | nil =>
      have h0 : step cfg s (.pop f) = some { s with fl := upd s.fl f (.writing 0 b c) } := by simp only [step, hc, hq]
      have h1 : step cfg { s with fl := upd s.fl f (.writing 0 b c) } (.finish f)
          = some ({ s with out := s.out ++ b.map Line.out, fl := upd s.fl f .idle, lock := none }.answer c) := by simp only [step, upd_self, upd2]
      refine ⟨[.pop f, .finish f], _, .cons h0 (.cons h1 (.nil _)), by simp [Act.writes], ?_⟩
      cases c <;> exact ⟨rfl, rfl, rfl, rfl, rfl⟩
    | cons r q =>
      by_cases e : (decide (r.level ≤ 1) && cfg.report) = true
      · have h0 : step cfg s (.pop f) = some { s with q := q, out := s.out ++ (b ++ [r]).map Line.out ++ [.err r], fl := upd s.fl f (.writing n [] c) } := by
          simp only [step, hc, hq, e, if_true]
        obtain ⟨as, s', p, ha, h1, h2, h3, h4, h5⟩ := ih { s with q := q, out := s.out ++ (b ++ [r]).map Line.out ++ [.err r], fl := upd s.fl f (.writing n [] c) } [] c (upd_self _ _ _)
        exact ⟨.pop f :: as, s', .cons h0 p, by simpa [Act.writes] using ha, h1, by rw [h2, upd2], h3, h4, h5⟩
      · have h0 : step cfg s (.pop f) = some { s with q := q, fl := upd s.fl f (.writing n (b ++ [r]) c) } := by
          simp only [step, hc, hq, e]; rfl
        obtain ⟨as, s', p, ha, h1, h2, h3, h4, h5⟩ := ih { s with q := q, fl := upd s.fl f (.writing n (b ++ [r]) c) } (b ++ [r]) c (upd_self _ _ _)
        exact ⟨.pop f :: as, s', .cons h0 p, by simpa [Act.writes] using ha, h1, by rw [h2, upd2], h3, h4, h5⟩

theorem serve {cfg : Cfg} (t : Nat) (k : Nat) : ∀ s : St, Run cfg s → s.failed = false → (s.th t).waits = true → s.lock = none → s.fl none = .idle → s.cmds.length = k →
    ∃ as s', Path cfg s as s' ∧ (∀ a ∈ as, a.writes = true) ∧ s'.th t = s.th t ∧ s'.done t = true ∧ s'.failed = false := by
  induction k with
  | zero =>
    intro s h hf hw _ hi hk
    cases hd : s.done t with
    | true => exact ⟨[], s, .nil _, by simp, rfl, hd, hf⟩
    | false =>
      have := ((h.inv.1.alive hf).2 t hw hd).1
      rw [St.pend, hi, List.length_eq_zero_iff.mp hk] at this
      cases this
  | succ k ih =>
    intro s h hf hw hl hi hk
    cases hc : s.cmds with
    | nil => rw [hc] at hk; cases hk
    | cons c cs =>
      rw [hc] at hk
      have h0 : step cfg s .recv = some { s with cmds := cs, fl := upd s.fl none (.counted s.q.length c) } := by simp only [step, hi, hc]
      have h1 : step cfg { s with cmds := cs, fl := upd s.fl none (.counted s.q.length c) } (.lock none)
          = some { s with cmds := cs, lock := some none, fl := upd (upd s.fl none (.counted s.q.length c)) none (.writing s.q.length [] c) } := by simp only [step, hl, upd_self]
      obtain ⟨as, s', p, ha, e1, e2, e3, e4, e5⟩ := drain (cfg := cfg) none s.q.length
        { s with cmds := cs, lock := some none, fl := upd (upd s.fl none (.counted s.q.length c)) none (.writing s.q.length [] c) } [] c (by simp only [upd_self])
      have e4' : s'.th = s.th := e4
      have p' : Path cfg s (.recv :: .lock none :: as) s' := .cons h0 (.cons h1 p)
      obtain ⟨bs, s'', p2, hb, f1, f2, f3⟩ := ih s' (p'.run h) (e5.trans hf) (by rw [e4']; exact hw) e1 (by rw [e2, upd_self]) (by rw [e3]; simpa using hk)
      refine ⟨_, s'', p'.append p2, ?_, by rw [f1, e4'], f2, f3⟩
      intro a hm
      rcases List.mem_append.mp hm with hm | hm
      · rcases List.mem_cons.mp hm with rfl | hm
        · rfl
        · rcases List.mem_cons.mp hm with rfl | hm
          · rfl
          · exact ha a hm
      · exact hb a hm

/-- The lock is given back, and then the logger thread ends the flush that it is in. -/
theorem settle {cfg : Cfg} {s : St} (h : Run cfg s) (hf : s.failed = false) :
    ∃ as s', Path cfg s as s' ∧ (∀ a ∈ as, a.writes = true) ∧ s'.lock = none ∧ s'.fl none = .idle ∧ s'.th = s.th ∧ s'.failed = false := by
  have first : ∃ as s', Path cfg s as s' ∧ (∀ a ∈ as, a.writes = true) ∧ s'.lock = none ∧ s'.th = s.th ∧ s'.failed = false := by
    cases hl : s.lock with
    | none => exact ⟨[], s, .nil _, by simp, hl, rfl, hf⟩
    | some f =>
      have := (h.inv.1.hold f).mpr hl
      cases hc : s.fl f with
      | writing n b c =>
        obtain ⟨as, s', p, ha, e1, _, _, e4, e5⟩ := drain (cfg := cfg) f n s b c hc
        exact ⟨as, s', p, ha, e1, e4, e5.trans hf⟩
      | idle => rw [hc] at this; cases this
      | counted => rw [hc] at this; cases this
      | dead => rw [hc] at this; cases this
  obtain ⟨as, s1, p, ha, e1, e4, e5⟩ := first
  have i := (p.run h).inv.1
  cases hc : s1.fl none with
  | idle => exact ⟨as, s1, p, ha, e1, hc, e4, e5⟩
  | dead => exact ((i.alive e5).1 none hc).elim
  | writing n b c => have := (i.hold none).mp (by rw [hc]; rfl); rw [e1] at this; cases this
  | counted n c =>
    have h1 : step cfg s1 (.lock none) = some { s1 with lock := some none, fl := upd s1.fl none (.writing n [] c) } := by simp only [step, e1, hc]
    obtain ⟨bs, s2, p2, hb, g1, g2, _, g4, g5⟩ := drain (cfg := cfg) none n { s1 with lock := some none, fl := upd s1.fl none (.writing n [] c) } [] c (by simp only [upd_self])
    refine ⟨_, s2, p.append (.cons h1 p2), ?_, g1, by rw [g2, upd_self], g4.trans e4, g5.trans e5⟩
    intro a hm
    rcases List.mem_append.mp hm with hm | hm
    · exact ha a hm
    · rcases List.mem_cons.mp hm with rfl | hm
      · rfl
      · exact hb a hm

/-- A thread that waits can always get its answer from the threads that write alone, whatever the others do or do not: there is no deadlock, even with a full queue. -/
theorem C79_progress {cfg : Cfg} {s : St} {t : Nat} (h : Run cfg s) (hf : s.failed = false) (hw : (s.th t).waits = true) :
    ∃ as s' s'', Path cfg s as s' ∧ (∀ a ∈ as, a.writes = true) ∧ s'.done t = true ∧ step cfg s' (.resume t) = some s'' := by
  obtain ⟨as, s1, p, ha, e1, e2, e4, e5⟩ := settle h hf
  obtain ⟨bs, s2, p2, hb, f1, f2, _⟩ := serve (cfg := cfg) t _ s1 (p.run h) e5 (by rw [e4]; exact hw) e1 e2 rfl
  have hw2 : s2.th t = s.th t := by rw [f1, e4]
  have hs : ∃ s'', step cfg s2 (.resume t) = some s'' := by
    simp only [step, f2, if_true, hw2]
    cases ht : s.th t with
    | full r => exact ⟨_, rfl⟩
    | wait => exact ⟨_, rfl⟩
    | idle => rw [ht] at hw; cases hw
    | push => rw [ht] at hw; cases hw
    | pushed => rw [ht] at hw; cases hw
  obtain ⟨s'', hs⟩ := hs
  refine ⟨_, s2, s'', p.append p2, ?_, f2, hs⟩
  intro a hm
  rcases List.mem_append.mp hm with hm | hm
  · exact ha a hm
  · exact hb a hm

/-! ## A write error of the logger thread -/

theorem step_dead {cfg : Cfg} {s s' : St} {a : Act} {t : Nat} (hc : ∀ u, (s.fl (some u)).carry = none) (hd : s.fl none = .dead) (hw : (s.th t).waits = true) (h1 : s.done t = false) (h2 : s.gone t = false)
    (h : step cfg s a = some s') : s'.fl none = .dead ∧ (s'.th t).waits = true ∧ s'.done t = false ∧ s'.gone t = false := by
  have ha : a ≠ .resume t := by
    rintro rfl
    simp only [step, h1, h2] at h
    cases h
  have hk := step_waits hw ha h
  have hx : s'.fl none = .dead ∧ s'.done t = false ∧ s'.gone t = false := by
    have g1 : s.th t ≠ .idle := by intro e; rw [e] at hw; cases hw
    have g2 : ∀ r, s.th t ≠ .push r := by intro r e; rw [e] at hw; cases hw
    have g3 : ∀ r, s.th t ≠ .pushed r := by intro r e; rw [e] at hw; cases hw
    have g4 : ∀ (f : Who) n b c, s.fl f = .writing n b c → c = none ∧ f ≠ none := by
      intro f n b c e
      cases f with
      | none => rw [hd] at e; cases e
      | some u => have := hc u; rw [e] at this; exact ⟨this, by simp⟩
    have g5 : ∀ (f : Who) n c, s.fl f = .counted n c → f ≠ none := by
      rintro f n c e rfl; rw [hd] at e; cases e
    cases a <;> simp only [step, St.ask] at h <;> repeat' split at h
    all_goals first
      | (cases h; done)
      | (injection h with h; subst h; (try unfold St.answer); (try unfold St.drop); (try split) <;> (try simp only [upd_apply]) <;> grind)
  exact ⟨hx.1, by rw [hk.1]; exact hw, hx.2.1, hx.2.2⟩

/-- Finding: after an error of a write, a thread that flushes waits for ever.  The receiver of the commands lives in a static, so the command is sent without an error, and nobody reads it. -/
theorem C79_hang {cfg : Cfg} {s s1 s2 : St} {as : List Act} {t : Nat} (h : Run cfg s) (hd : s.fl none = .dead) (h1 : step cfg s (.flush t) = some s1) (p : Path cfg s1 as s2) :
    s2.th t = .wait ∧ step cfg s2 (.resume t) = none := by
  have key : ∀ {s1 s2 : St} {as : List Act}, Run cfg s1 → Path cfg s1 as s2 → s1.fl none = .dead → (s1.th t).waits = true → s1.done t = false → s1.gone t = false →
      s2.th t = s1.th t ∧ s2.done t = false ∧ s2.gone t = false := by
    intro s1 s2 as r p
    induction p with
    | nil => intro _ _ a b; exact ⟨rfl, a, b⟩
    | @cons _ _ _ act _ hs _ ih =>
      intro a b c d
      have := step_dead r.inv.1.hooks a b c d hs
      have ha : act ≠ .resume t := by
        rintro rfl
        simp only [step, c, d] at hs
        cases hs
      have g := ih (r.step hs) this.1 this.2.1 this.2.2.1 this.2.2.2
      exact ⟨g.1.trans (step_waits b ha hs).1, g.2⟩
  have r := h.step h1
  simp only [step] at h1
  split at h1
  · injection h1 with h1; subst h1
    have := key r p hd (by simp only [upd_self]; rfl) (upd_self _ _ _) (upd_self _ _ _)
    have e : s2.th t = .wait := by rw [this.1]; exact upd_self _ _ _
    exact ⟨e, by simp [step, this.2.1, this.2.2]⟩
  · cases h1

end Shadow.Logger
