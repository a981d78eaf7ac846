import Verif.Wake.Model

/-!
The invariant of conditions, threads and tasks (C67).  `Core` is about references, identifiers and the queue; `Rest` about timers, lost wakeups,
signals, `execve` and the log.
-/

namespace Shadow.Wake

open Shadow.Base

/-- The condition belongs to a thread. -/
def owned (s : St) (c : Nat) : Bool := s.ths.any fun t => t.cond = some c

/-- The number of queued wakeups of a condition. -/
def wakes (q : List (Nat × Task)) (c : Nat) : Nat := q.countP fun x => x.2 = .wake c

/-- Identifiers of threads. -/
structure Ids (s : St) : Prop where
  uniq : ∀ t : Th, ∀ t' : Th, t ∈ s.ths → t' ∈ s.ths → t.uid = t'.uid → t = t'
  lt : ∀ t : Th, t ∈ s.ths → t.uid < s.next ∧ t.pid < s.next ∧ t.tid < s.next
  tids : ∀ t : Th, ∀ t' : Th, t ∈ s.ths → t' ∈ s.ths → t.tid = t'.tid → t = t'
  lead : ∀ t : Th, ∀ t' : Th, t ∈ s.ths → t' ∈ s.ths → t.uid = t'.pid → t.pid = t'.pid
  tidOf : ∀ t : Th, t ∈ s.ths → t.tid = t.uid ∨ t.tid = t.pid
  cur : ∀ u, s.cur = some u → ∃ t ∈ s.ths, t.uid = u

/-- Conditions and their references. -/
structure Cds (s : St) : Prop where
  own : ∀ t : Th, ∀ c : Nat, t ∈ s.ths → t.cond = some c →
    c < s.nc ∧ (s.conds c).uid = t.uid ∧ (s.conds c).pid = t.pid
  wait : ∀ t : Th, ∀ c : Nat, t ∈ s.ths → t.cond = some c → s.cur ≠ some t.uid →
    (s.conds c).tid = t.tid ∧ (s.conds c).listening = true ∧ (s.conds c).cut = false ∧
      (s.conds c).timer = (s.conds c).timeout.isSome
  runs : ∀ t : Th, ∀ c : Nat, t ∈ s.ths → t.cond = some c → s.cur = some t.uid →
    (s.conds c).listening = false ∧ ((s.conds c).sched = true → (s.conds c).cut = true)
  lis : ∀ c : Nat, (s.conds c).listening = true → ∃ t ∈ s.ths, t.cond = some c
  tim : ∀ c : Nat, (s.conds c).timer = true → (s.conds c).listening = true
  refs : ∀ c : Nat, (s.conds c).refs = (owned s c).toNat + (s.conds c).timer.toNat +
    (s.conds c).listening.toNat + (s.conds c).sched.toNat
  freed : ∀ c : Nat, c < s.nc → ((s.conds c).freed = true ↔ (s.conds c).refs = 0)
  fresh : ∀ c : Nat, s.nc ≤ c → s.conds c = {}
  wk : ∀ c : Nat, wakes s.queue c = (s.conds c).sched.toNat
  orph : ∀ c : Nat, owned s c = false → (s.conds c).sched = true → (s.conds c).cut = true
  gone : ∀ c : Nat, ∀ t : Th, c < s.nc → (s.conds c).cut = true → t ∈ s.ths → t.pid = (s.conds c).pid →
    t.tid = (s.conds c).tid → t.pid ∈ s.execd
  clt : ∀ c : Nat, c < s.nc → (s.conds c).pid < s.next ∧ (s.conds c).tid < s.next

/-- The queue. -/
structure Que (s : St) : Prop where
  qge : ∀ q : Nat × Task, q ∈ s.queue → s.now ≤ q.1
  qeq : ∀ q : Nat × Task, q ∈ s.queue → (∀ c, q.2 ≠ .timer c) → q.1 ≤ s.now
  qtim : ∀ x c : Nat, (x, Task.timer c) ∈ s.queue → c < s.nc ∧ (s.conds c).timeout = some x
  qstart : ∀ x p y : Nat, ∀ t : Th, (x, Task.start p y) ∈ s.queue → t ∈ s.ths → t.pid = p → t.tid = y →
    t.cond = none ∧ s.cur ≠ some t.uid
  qlead : ∀ x p y : Nat, ∀ t : Th, (x, Task.start p y) ∈ s.queue → t ∈ s.ths → t.pid = p → y = p → t.tid = y
  qone : ∀ p y : Nat, s.queue.countP (fun q => q.2 = .start p y) ≤ 1
  qvirg : ∀ x p y c : Nat, (x, Task.start p y) ∈ s.queue → c < s.nc → (s.conds c).pid = p → (s.conds c).tid ≠ y
  qsid : ∀ x p y : Nat, (x, Task.start p y) ∈ s.queue → p < s.next ∧ y < s.next

/-- Where the rest of the invariant may fail in the middle of a step: at conditions, threads and processes. -/
structure Ex where
  tm : Nat → Prop := fun _ => False
  cnd : Nat → Prop := fun _ => False
  uid : Nat → Prop := fun _ => False
  pid : Nat → Prop := fun _ => False
  thr : Nat → Prop := fun _ => False

/-- The rest of the invariant: threads that have not run have their task; timers; `execve` tasks; wakeups that must not be lost; signals of
threads; signals of processes are on their way to a thread; the log. -/
structure Rest (s : St) (X : Ex) : Prop where
  uns : ∀ t : Th, t ∈ s.ths → ¬ X.uid t.uid → t.cond = none → s.cur ≠ some t.uid →
    ∃ x, (x, Task.start t.pid t.tid) ∈ s.queue
  arm : ∀ c : Nat, (s.conds c).armed = true → (s.conds c).timer = true
  dl : ∀ c x : Nat, ¬ X.tm c → (s.conds c).listening = true → (s.conds c).timeout = some x → s.now ≤ x ∧
    ((s.conds c).armed = true → (x, Task.timer c) ∈ s.queue) ∧
    ((s.conds c).armed = false → x ≤ s.now ∧ (s.conds c).sched = true)
  ord : s.queue.Pairwise fun a b => ∀ c p x, a.2 = .wake c → b.2 = .exec p x →
    (s.conds c).pid = p → (s.conds c).tid = x → (s.conds c).cut = true
  one : s.odd = false → ∀ p : Nat, s.queue.countP (fun q => q.2.execOf p) ≤ 1
  thr : s.odd = false → ∀ x p y : Nat, ∀ t : Th, ¬ X.thr p → (x, Task.exec p y) ∈ s.queue → t ∈ s.ths → t.pid = p →
    ∃ t' : Th, t' ∈ s.ths ∧ t'.pid = p ∧ t'.tid = y ∧ t'.cond ≠ none ∧ s.cur ≠ some t'.uid
  eid : ∀ x p y : Nat, (x, Task.exec p y) ∈ s.queue → p < s.next ∧ y < s.next
  exn : ∀ x p y : Nat, ∀ t : Th, (x, Task.exec p y) ∈ s.queue → t ∈ s.ths → t.pid = p → t.tid = y →
    t.cond ≠ none ∨ s.cur = some t.uid
  bits : ∀ c o : Nat, ∀ m : BitVec 16, ¬ X.cnd c → (s.conds c).listening = true → (s.conds c).trig = .file o m →
    s.objs o &&& m ≠ 0 → (s.conds c).sched = true
  notif : ∀ c : Nat, ¬ X.cnd c → (s.conds c).listening = true → (s.conds c).notified = true → (s.conds c).sched = true
  nfk : ∀ c : Nat, (s.conds c).notified = true → (s.conds c).trig = .futex ∨ (s.conds c).trig = .child
  hld : ∀ c : Nat, (s.conds c).held = true → ∃ x, (s.conds c).timeout = some x
  tsig : ∀ t : Th, ∀ c g : Nat, ¬ X.uid t.uid → t ∈ s.ths → t.cond = some c → s.cur ≠ some t.uid → g ∈ t.pend →
    ¬ g ∈ t.blocked → (s.conds c).sched = true ∨ (s.conds c).held = true ∨ X.cnd c
  psig : ∀ p g : Nat, ∀ t : Th, ¬ X.pid p → (p, g) ∈ s.ppend → t ∈ s.ths → t.pid = p → ¬ g ∈ t.blocked →
    ∃ t' : Th, t' ∈ s.ths ∧ t'.pid = p ∧ ¬ g ∈ t'.blocked ∧
      (s.cur = some t'.uid ∨ ∀ c, t'.cond = some c → (s.conds c).sched = true ∨ (s.conds c).held = true ∨ X.cnd c)
  lg : ∀ c : Nat, s.log.countP (fun e => e.2 = .wake c) ≤ 1 ∧
    (1 ≤ s.log.countP (fun e => e.2 = .wake c) →
      c < s.nc ∧ (s.conds c).sched = false ∧ (s.conds c).listening = false)

/-- No thread is in the list twice. -/
structure Nd (s : St) : Prop where
  nd : (s.ths.map (·.uid)).Nodup

structure Core (s : St) : Prop extends Ids s, Cds s, Que s, Nd s

theorem nd_filter {s : St} (h : Nd s) (P : Th → Bool) : ((s.ths.filter P).map (·.uid)).Nodup :=
  List.Nodup.sublist (List.Sublist.map _ List.filter_sublist) h.nd

theorem nd_map {s : St} (h : Nd s) (f : Th → Th) (hf : ∀ t, (f t).uid = t.uid) : ((s.ths.map f).map (·.uid)).Nodup := by
  have e : (s.ths.map f).map (·.uid) = s.ths.map (·.uid) := by
    rw [List.map_map]
    exact List.map_congr_left (fun t _ => hf t)
  rw [e]
  exact h.nd

@[simp, grind =] theorem upd_now (s : St) (c : Nat) (f : Cond → Cond) : (St.upd s c f).now = s.now := rfl
@[simp, grind =] theorem upd_queue (s : St) (c : Nat) (f : Cond → Cond) : (St.upd s c f).queue = s.queue := rfl
@[simp, grind =] theorem upd_conds (s : St) (c : Nat) (f : Cond → Cond) (i : Nat) :
    (St.upd s c f).conds i = if i = c then f (s.conds c) else s.conds i := rfl
@[simp, grind =] theorem upd_nc (s : St) (c : Nat) (f : Cond → Cond) : (St.upd s c f).nc = s.nc := rfl
@[simp, grind =] theorem upd_objs (s : St) (c : Nat) (f : Cond → Cond) : (St.upd s c f).objs = s.objs := rfl
@[simp, grind =] theorem upd_ths (s : St) (c : Nat) (f : Cond → Cond) : (St.upd s c f).ths = s.ths := rfl
@[simp, grind =] theorem upd_ppend (s : St) (c : Nat) (f : Cond → Cond) : (St.upd s c f).ppend = s.ppend := rfl
@[simp, grind =] theorem upd_cur (s : St) (c : Nat) (f : Cond → Cond) : (St.upd s c f).cur = s.cur := rfl
@[simp, grind =] theorem upd_next (s : St) (c : Nat) (f : Cond → Cond) : (St.upd s c f).next = s.next := rfl
@[simp, grind =] theorem upd_execd (s : St) (c : Nat) (f : Cond → Cond) : (St.upd s c f).execd = s.execd := rfl
@[simp, grind =] theorem upd_odd (s : St) (c : Nat) (f : Cond → Cond) : (St.upd s c f).odd = s.odd := rfl
@[simp, grind =] theorem upd_log (s : St) (c : Nat) (f : Cond → Cond) : (St.upd s c f).log = s.log := rfl

theorem wakes_snoc (q : List (Nat × Task)) (x : Nat × Task) (c : Nat) :
    wakes (q ++ [x]) c = wakes q c + if x.2 = .wake c then 1 else 0 := by
  simp [wakes, List.countP_append, List.countP_cons]

theorem mem_owned {s : St} {c : Nat} : owned s c = true ↔ ∃ t ∈ s.ths, t.cond = some c := by
  simp [owned]

/-- The state after a wakeup was queued. -/
def schedSt (s : St) (c : Nat) : St :=
  { s.upd c (fun k => { k with refs := k.refs + 1, sched := true }) with
    queue := s.queue ++ [(s.now, .wake c)] }

@[simp, grind =] theorem schedSt_now (s : St) (c : Nat) : (schedSt s c).now = s.now := rfl
@[simp, grind =] theorem schedSt_queue (s : St) (c : Nat) : (schedSt s c).queue = s.queue ++ [(s.now, .wake c)] := rfl
@[simp, grind =] theorem schedSt_conds (s : St) (c : Nat) (i : Nat) :
    (schedSt s c).conds i = if i = c then { s.conds c with refs := (s.conds c).refs + 1, sched := true } else s.conds i := rfl
@[simp, grind =] theorem schedSt_nc (s : St) (c : Nat) : (schedSt s c).nc = s.nc := rfl
@[simp, grind =] theorem schedSt_objs (s : St) (c : Nat) : (schedSt s c).objs = s.objs := rfl
@[simp, grind =] theorem schedSt_ths (s : St) (c : Nat) : (schedSt s c).ths = s.ths := rfl
@[simp, grind =] theorem schedSt_ppend (s : St) (c : Nat) : (schedSt s c).ppend = s.ppend := rfl
@[simp, grind =] theorem schedSt_cur (s : St) (c : Nat) : (schedSt s c).cur = s.cur := rfl
@[simp, grind =] theorem schedSt_next (s : St) (c : Nat) : (schedSt s c).next = s.next := rfl
@[simp, grind =] theorem schedSt_execd (s : St) (c : Nat) : (schedSt s c).execd = s.execd := rfl
@[simp, grind =] theorem schedSt_odd (s : St) (c : Nat) : (schedSt s c).odd = s.odd := rfl
@[simp, grind =] theorem schedSt_log (s : St) (c : Nat) : (schedSt s c).log = s.log := rfl

theorem not_freed {s : St} (h : Cds s) {c : Nat} (hl : (s.conds c).listening = true) :
    c < s.nc ∧ (s.conds c).freed = false := by
  obtain ⟨t, ht, hc⟩ := h.lis c hl
  have ho := (h.own t c ht hc).1
  refine ⟨ho, ?_⟩
  have hr := h.refs c
  have hf := h.freed c ho
  rw [hl] at hr
  cases hx : (s.conds c).freed
  · rfl
  · have := hf.1 hx
    simp at hr
    omega

theorem sched_cases {s : St} (h : Cds s) {c : Nat} (hl : (s.conds c).listening = true) :
    ((s.conds c).sched = true ∧ s.sched c = .ok s) ∨
    ((s.conds c).sched = false ∧ s.sched c = .ok (schedSt s c)) := by
  have hf := (not_freed h hl).2
  unfold St.sched schedSt
  rw [hf]
  cases hs : (s.conds c).sched <;> simp

theorem schedSt_core {s : St} (h : Core s) {c : Nat} (hl : (s.conds c).listening = true)
    (hs : (s.conds c).sched = false) : Core (schedSt s c) := by
  have hn := not_freed h.toCds hl
  have ho : ∀ d, owned (schedSt s c) d = owned s d := fun _ => rfl
  obtain ⟨hI, hC, hQ, hN⟩ := h
  refine ⟨⟨hI.uniq, hI.lt, hI.tids, hI.lead, hI.tidOf, hI.cur⟩, ?_, ?_, ⟨hN.nd⟩⟩
  · constructor
    · grind [→ hC.own]
    · grind [→ hC.wait]
    · grind [→ hC.runs]
    · grind [→ hC.lis]
    · grind [→ hC.tim]
    · intro d
      have := hC.refs d
      rw [ho]
      simp only [schedSt, upd_conds]
      by_cases hd : d = c
      · subst hd; simp [hs] at this ⊢; omega
      · simp [hd, this]
    · grind [→ hC.freed]
    · grind [→ hC.fresh]
    · intro d
      have := hC.wk d
      show wakes (s.queue ++ [(s.now, .wake c)]) d = _
      rw [wakes_snoc, this]
      simp only [schedSt, upd_conds]
      by_cases hd : d = c
      · subst hd; simp [hs]
      · have : c ≠ d := fun e => hd e.symm
        simp [hd, this]
    · have h2 := mem_owned.2 (hC.lis c hl)
      grind [→ hC.orph]
    · grind [→ hC.gone]
    · grind [→ hC.clt]
  · constructor
    · grind [→ hQ.qge]
    · grind [→ hQ.qeq]
    · grind [→ hQ.qtim]
    · grind [→ hQ.qstart]
    · grind [→ hQ.qlead]
    · intro p y
      have := hQ.qone p y
      simp only [schedSt_queue, List.countP_append]
      simpa using this
    · grind [→ hQ.qvirg]
    · grind [→ hQ.qsid]

/-! ### Cancelling and dropping conditions -/

/-- The state after a reference was dropped. -/
def unrefSt (s : St) (c : Nat) : St :=
  s.upd c fun k => { k with refs := k.refs - 1, freed := decide (k.refs = 1) }

theorem unref_eq {s : St} {c : Nat} (hf : (s.conds c).freed = false) (hr : (s.conds c).refs ≠ 0) :
    s.unref c = .ok (unrefSt s c) := by
  simp [St.unref, hf, hr, unrefSt]

theorem upd_upd (s : St) (c : Nat) (f g : Cond → Cond) : (s.upd c f).upd c g = s.upd c (fun k => g (f k)) := by
  unfold St.upd
  congr 1
  funext i
  by_cases h : i = c <;> simp [h]

theorem upd_congr {s : St} {c : Nat} {f g : Cond → Cond} (h : f (s.conds c) = g (s.conds c)) :
    s.upd c f = s.upd c g := by
  unfold St.upd
  rw [h]

theorem upd_self {s : St} {c : Nat} {f : Cond → Cond} (h : f (s.conds c) = s.conds c) : s.upd c f = s := by
  unfold St.upd
  have : (fun i => if i = c then f (s.conds c) else s.conds i) = s.conds := by
    funext i
    by_cases hi : i = c
    · subst hi; simp [h]
    · simp [hi]
  rw [this]

/-- The state after a condition lost its timer and its listener. -/
def cancelSt (s : St) (c : Nat) : St :=
  s.upd c fun k => { k with
    timer := false, armed := k.armed && !k.timer, listening := false
    refs := k.refs - k.timer.toNat - k.listening.toNat }

theorem cancel_eq {s : St} {c : Nat} (hf : (s.conds c).freed = false)
    (hr : (s.conds c).timer.toNat + (s.conds c).listening.toNat < (s.conds c).refs) :
    s.cancel c = .ok (cancelSt s c) := by
  have h1 : s.dropTimer c = .ok (s.upd c fun k =>
      { k with timer := false, armed := k.armed && !k.timer, refs := k.refs - k.timer.toNat }) := by
    unfold St.dropTimer
    cases ht : (s.conds c).timer
    · rw [if_neg (by simp)]
      congr 1
      refine (upd_self ?_).symm
      rw [← ht]; simp [ht]
      cases hk : s.conds c; simp_all
    · rw [if_pos rfl, unref_eq (by simpa using hf) (by simp; omega)]
      congr 1
      rw [unrefSt, upd_upd]
      refine upd_congr ?_
      rw [ht] at hr
      simp [ht, hf] at hr ⊢
      omega
  unfold St.cancel
  rw [hf, if_neg (by simp), h1, R.bind_ok]
  unfold St.dropListener
  cases hl : (s.conds c).listening
  · rw [if_neg (by simpa using hl)]
    congr 1
    refine upd_congr ?_
    simp [hl]
  · rw [if_pos (by simpa using hl), unref_eq (by simpa using hf) (by rw [hl] at hr; simp at hr ⊢; omega)]
    congr 1
    rw [unrefSt, cancelSt, upd_upd, upd_upd]
    refine upd_congr ?_
    rw [hl] at hr
    simp [hl, hf] at hr ⊢
    omega

end Shadow.Wake
