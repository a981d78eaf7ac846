import Verif.Epoll.Model

/-!
# Epoll: theorems (C25)
-/
namespace Shadow.Epoll

open Shadow.Base

/-! ## Specification

The specification knows of each registration only its log: how it was armed, what the file's state became since, and what
was reported. -/

inductive Rec where
  | armed (ev : Events) (data : Nat) (state : Flags)
  | told (state : Flags) (grew : Bool)
  | reported (on : Cond → Bool)

/-- The newest record first. The empty log stands for a file that is not registered. -/
abbrev Log := List Rec

/-- The state flag that stands for a condition. -/
def flagOf : Cond → Flag
  | .inn => .readable
  | .out => .writable
  | .rdhup => .rdhup

/-- The last known state of the file. -/
def lastState : Log → Flags
  | [] => fun _ => false
  | .armed _ _ s :: _ => s
  | .told s _ :: _ => s
  | .reported _ :: l => lastState l

/-- The registered data and options. -/
def data : Log → Nat
  | [] => 0
  | .armed _ d _ :: _ => d
  | .told _ _ :: l => data l
  | .reported _ :: l => data l

def et : Log → Bool
  | [] => false
  | .armed ev _ _ :: _ => ev.et
  | .told _ _ :: l => et l
  | .reported _ :: l => et l

def oneshot : Log → Bool
  | [] => false
  | .armed ev _ _ :: _ => ev.oneshot
  | .told _ _ :: l => oneshot l
  | .reported _ :: l => oneshot l

/-- A condition is of interest: it was asked for, and, if one-shot, it has not been reported since. -/
def wants (c : Cond) : Log → Bool
  | [] => false
  | .armed ev _ _ :: _ => ev.on c
  | .told _ _ :: l => wants c l
  | .reported on :: l => wants c l && !(oneshot l && on c)

/-- Something about a condition is new: since it was reported last, the registration was armed, or the condition turned on
    or off, or, for readability, more could be read. -/
def fresh (c : Cond) : Log → Bool
  | [] => false
  | .armed _ _ _ :: _ => true
  | .told s grew :: l => (s (flagOf c) != lastState l (flagOf c)) || (grew && c == .inn && s .readable) || fresh c l
  | .reported on :: l => !on c && fresh c l

/-- What epoll is to report about a condition: it is of interest and holds, and, if edge-triggered, it is new. -/
def reports (c : Cond) (l : Log) : Bool := wants c l && lastState l (flagOf c) && (!et l || fresh c l)

/-- A registration is ready if there is something to report. The old TCP sockets must be active too. -/
def isReady (legacy : Bool) (l : Log) : Bool :=
  !lastState l .closed && (!legacy || lastState l .active) && (reports .inn l || reports .out l || reports .rdhup l)

/-- The state of the specification: the logs, the queue of what is ready, in the order in which it is to be reported, and
    the news about a file that have not yet reached a registration. -/
structure Ghost where
  log : Key → Log
  fifo : List Key
  news : Key → List (Flags × Bool)

def Ghost.set (g : Ghost) (k : Key) (l : Log) : Key → Log := fun j => if j = k then l else g.log j

/-- A registration that became ready goes to the end of the queue; one that stays ready keeps its place. -/
def place (ready : Bool) (k : Key) (fifo : List Key) : List Key :=
  if ready then (if k ∈ fifo then fifo else fifo ++ [k]) else fifo.filter (· != k)

/-- A successful `epoll_ctl` on a file whose state is `state`. -/
def Ghost.ctl (g : Ghost) (legacy : Bool) (state : Flags) (op : Op) (k : Key) (ev : Events) (d : Nat) : Ghost :=
  match op with
  | .del => ⟨g.set k [], g.fifo.filter (· != k), g.news⟩
  | _ => ⟨g.set k [.armed ev d state], place (isReady legacy [.armed ev d state]) k g.fifo, g.news⟩

def differs (a b : Flags) : Bool :=
  a .readable != b .readable || a .writable != b .writable || a .rdhup != b .rdhup || a .closed != b .closed || a .active != b .active

/-- A file's state changes from `old` to `new`, or more can be read: this is news for all its registrations. -/
def Ghost.change (g : Ghost) (old : Flags) (file : Nat) (new : Flags) (grew : Bool) : Ghost :=
  ⟨g.log, g.fifo, fun k => if !(g.log k).isEmpty && k.2 == file && (differs new old || grew) then g.news k ++ [(new, grew)] else g.news k⟩

/-- The first of the news reaches a registration. A closed file is forgotten. -/
def Ghost.tell (g : Ghost) (legacy : Bool) (k : Key) : Ghost :=
  match g.news k with
  | [] => g
  | (state, grew) :: rest =>
    if state .closed then ⟨g.set k [], g.fifo.filter (· != k), fun j => if j = k then [] else g.news j⟩
    else ⟨g.set k (.told state grew :: g.log k), place (isReady legacy (.told state grew :: g.log k)) k g.fifo, fun j => if j = k then rest else g.news j⟩

/-- What is left in the logs when the first `max` ready registrations have been reported. -/
def Ghost.waitLog (g : Ghost) (max : Nat) : Key → Log :=
  fun k => if k ∈ g.fifo.take max then .reported (fun c => reports c (g.log k)) :: g.log k else g.log k

/-- `epoll_wait`: those still ready go to the end of the queue. -/
def Ghost.wait (g : Ghost) (legacy : Nat → Bool) (max : Nat) : Ghost :=
  ⟨g.waitLog max, g.fifo.drop max ++ (g.fifo.take max).filter (fun k => isReady (legacy k.2) (g.waitLog max k)), g.news⟩

inductive Label where
  | ctl (op : Op) (k : Key) (err : Option Errno)
  | change
  | deliver
  | wait (max : Nat) (out : List (Events × Nat))

/-- The steps. Calls are made when all callbacks have been run. -/
inductive Step : World → Ghost → Label → World → Ghost → Prop where
  | ctl {w g op k ev d w' err} : w.queue = [] → w.ctl op k ev d = (w', err) →
      Step w g (.ctl op k err) w' (if err.isSome then g else g.ctl (w.legacy k.2) (w.files k.2) op k ev d)
  | change {w g file new grew} : Step w g .change (w.change file new grew) (g.change (w.files file) file new grew)
  | deliver {w g n rest w'} : w.queue = n :: rest → w.deliver = .ok w' → Step w g .deliver w' (g.tell (w.legacy n.key.2) n.key)
  | wait {w g max w' out} : w.queue = [] → w.collect max = .ok (w', out) → Step w g (.wait max out) w' (g.wait w.legacy max)

inductive Run : World → Ghost → Prop where
  | new {files legacy} : Run (World.new files legacy) ⟨fun _ => [], [], fun _ => []⟩
  | step {w g lab w' g'} : Run w g → Step w g lab w' g' → Run w' g'

/-! ## The entries -/

/-- An entry is what its log says. -/
structure Agrees (legacy : Bool) (e : Entry) (l : Log) : Prop where
  leg : e.legacy = legacy
  dat : e.data = data l
  edge : e.interest.et = et l
  once : e.interest.oneshot = oneshot l
  want : ∀ c, e.interest.on c = wants c l
  open1 : e.state .closed = false
  open2 : lastState l .closed = false
  state : ∀ c, wants c l = true → e.state (flagOf c) = lastState l (flagOf c)
  act : legacy = true → e.state .active = lastState l .active
  coll : et l = true → ∀ c, wants c l = true → e.collected (flagOf c) = !fresh c l

theorem eventsFromState_on (s : Flags) (c : Cond) : (eventsFromState s).on c = s (flagOf c) := by cases c <;> rfl

theorem stateFromEvents_on (e : Events) (c : Cond) : stateFromEvents e (flagOf c) = e.on c := by cases c <;> rfl

theorem readyEvents_on {legacy : Bool} {e : Entry} {l : Log} (h : Agrees legacy e l) (c : Cond) : e.readyEvents.on c = reports c l := by
  unfold Entry.readyEvents Events.inter Entry.readyState reports
  dsimp only
  rw [eventsFromState_on, h.want c, h.edge]
  cases hw : wants c l with
  | false => rfl
  | true =>
    cases he : et l with
    | false => rw [if_neg (by decide), h.state c hw]; simp
    | true => rw [if_pos rfl, h.state c hw, h.coll he c hw]; simp

theorem readyEvents_opts (e : Entry) : e.readyEvents.et = false ∧ e.readyEvents.oneshot = false := by
  simp [Entry.readyEvents, Events.inter, eventsFromState]

theorem readyEvents_eq {legacy : Bool} {e : Entry} {l : Log} (h : Agrees legacy e l) : e.readyEvents = ⟨fun c => reports c l, false, false⟩ := by
  obtain ⟨h1, h2⟩ := readyEvents_opts e
  have h3 : e.readyEvents.on = fun c => reports c l := funext (readyEvents_on h)
  cases hh : e.readyEvents with
  | mk a b c => rw [hh] at h1 h2 h3; dsimp only at h1 h2 h3; rw [h1, h2, h3]

theorem hasReady_eq {legacy : Bool} {e : Entry} {l : Log} (h : Agrees legacy e l) : e.hasReady = isReady legacy l := by
  unfold Entry.hasReady isReady
  rw [readyEvents_eq h, h.leg, h.open1, h.open2]
  cases hl : legacy with
  | false => simp [Events.isEmpty]
  | true =>
    rw [if_pos rfl, if_neg (by decide), h.act hl]
    cases lastState l .active <;> simp [Events.isEmpty]

theorem agrees_pri {legacy : Bool} {e : Entry} {l : Log} (h : Agrees legacy e l) (p : Option Int) : Agrees legacy { e with pri := p } l :=
  ⟨h.leg, h.dat, h.edge, h.once, h.want, h.open1, h.open2, h.state, h.act, h.coll⟩

theorem agrees_new {legacy : Bool} {ev : Events} {d : Nat} {s : Flags} (h : s .closed = false) :
    Agrees legacy (Entry.new ev d s legacy) [.armed ev d s] :=
  ⟨rfl, rfl, rfl, rfl, fun _ => rfl, h, h, fun _ _ => rfl, fun _ => rfl, fun _ _ _ => rfl⟩

theorem agrees_modify {legacy : Bool} {e : Entry} {ev : Events} {d : Nat} {s : Flags} (hl : e.legacy = legacy) (h : s .closed = false) :
    Agrees legacy (e.modify ev d s) [.armed ev d s] :=
  ⟨hl, rfl, rfl, rfl, fun _ => rfl, h, h, fun _ _ => rfl, fun _ => rfl, fun _ _ _ => rfl⟩

/-- What a listener must look for. -/
structure Looks (legacy : Bool) (mon : Flags) (monGrew : Bool) (l : Log) : Prop where
  conds : ∀ c, wants c l = true → mon (flagOf c) = true
  closed : mon .closed = true
  all : legacy = true → ∀ f, mon f = true
  grew : monGrew = et l

theorem looks_listener {legacy : Bool} {e : Entry} {l : Log} (h : Agrees legacy e l) :
    Looks legacy (fun f => e.listenerState f || f == .closed) e.listenerGrew l := by
  refine ⟨fun c hc => ?_, by simp, fun hl f => ?_, h.edge⟩
  · unfold Entry.listenerState
    split
    · rfl
    · dsimp only; rw [stateFromEvents_on, h.want c, hc]; rfl
  · unfold Entry.listenerState
    rw [h.leg, hl]
    rfl

/-- The listener's filter keeps only what does not matter. -/
theorem agrees_skip {legacy : Bool} {e : Entry} {l : Log} (h : Agrees legacy e l) {n : Note} (hl : Looks legacy n.mon n.monGrew l)
    (hc : ∀ f, n.changed f = (n.state f != lastState l f)) (hp : n.passes = false) :
    n.state .closed = false ∧ Agrees legacy e (.told n.state n.grew :: l) := by
  unfold Note.passes at hp
  simp only [Bool.or_eq_false_iff] at hp
  obtain ⟨⟨⟨⟨⟨p1, p2⟩, p3⟩, p4⟩, p5⟩, p6⟩ := hp
  have same : ∀ f, n.mon f = true → n.state f = lastState l f := by
    intro f hf
    have h0 : n.changed f = false := by
      cases f
      · rw [hf, Bool.true_and] at p1; exact p1
      · rw [hf, Bool.true_and] at p2; exact p2
      · rw [hf, Bool.true_and] at p3; exact p3
      · rw [hf, Bool.true_and] at p4; exact p4
      · rw [hf, Bool.true_and] at p5; exact p5
    rw [hc f] at h0
    simpa using h0
  have hcl : n.state .closed = false := by rw [same _ hl.closed]; exact h.open2
  refine ⟨hcl, ⟨h.leg, h.dat, h.edge, h.once, h.want, h.open1, hcl, ?_, ?_, ?_⟩⟩
  · intro c hw
    rw [h.state c hw]
    exact (same _ (hl.conds c hw)).symm
  · intro hh
    rw [h.act hh]
    exact (same _ (hl.all hh _)).symm
  · intro he c hw
    rw [h.coll he c hw]
    have e1 : n.state (flagOf c) = lastState l (flagOf c) := same _ (hl.conds c hw)
    have e2 : n.grew = false := by
      have : n.monGrew = true := by rw [hl.grew]; exact he
      rw [this, Bool.and_true] at p6
      exact p6
    simp [fresh, e1, e2]

/-- The entry is told. -/
theorem notify_ok {legacy : Bool} {e : Entry} {l : Log} (h : Agrees legacy e l) {s ch : Flags} {grew mg : Bool}
    (hl : mg = et l) (hc : ∀ f, ch f = (s f != lastState l f)) :
    ∃ e', e.notify s ch (grew && mg) = .ok e' ∧ e'.pri = e.pri ∧ e'.state .closed = s .closed ∧
      (s .closed = false → Agrees legacy e' (.told s grew :: l)) := by
  have base : ∀ col : Flags, (et l = true → ∀ c, wants c l = true → col (flagOf c) = !fresh c (.told s grew :: l)) → s .closed = false →
      Agrees legacy { e with state := s, collected := col } (.told s grew :: l) := fun col hcol hs =>
    ⟨h.leg, h.dat, h.edge, h.once, h.want, hs, hs, fun _ _ => rfl, fun _ => rfl, hcol⟩
  unfold Entry.notify
  dsimp only
  cases hg : (grew && mg) with
  | false =>
    refine ⟨_, rfl, rfl, rfl, base _ ?_⟩
    intro he c hw
    have hgf : grew = false := by
      rw [hl, he, Bool.and_true] at hg; exact hg
    rw [h.coll he c hw, hc]
    simp [fresh, hgf, Bool.and_comm]
  | true =>
    rw [Bool.and_eq_true] at hg
    have he : et l = true := by rw [← hl]; exact hg.2
    rw [if_pos rfl, h.edge, he, R.assert_true, R.bind_ok]
    cases hr : s .readable with
    | true =>
      rw [if_pos rfl]
      refine ⟨_, rfl, rfl, rfl, base _ ?_⟩
      intro _ c hw
      rw [h.coll he c hw, hc]
      rw [show fresh c (.told s grew :: l) = ((s (flagOf c) != lastState l (flagOf c)) || (grew && c == .inn && s .readable) || fresh c l) from rfl, hg.1, hr]
      generalize (s (flagOf c) != lastState l (flagOf c)) = a
      generalize fresh c l = b
      cases c <;> cases a <;> cases b <;> rfl
    | false =>
      rw [if_neg (by decide)]
      refine ⟨_, rfl, rfl, rfl, base _ ?_⟩
      intro _ c hw
      rw [h.coll he c hw, hc]
      simp [fresh, hr, Bool.and_comm]

/-- The entry is reported. -/
theorem collect_ok {legacy : Bool} {e : Entry} {l : Log} (h : Agrees legacy e l) (hr : isReady legacy l = true) :
    ∃ e', e.collect = (e', some (⟨fun c => reports c l, false, false⟩, data l)) ∧ e'.pri = e.pri ∧
      Agrees legacy e' (.reported (fun c => reports c l) :: l) := by
  have hne : e.readyEvents.isEmpty = false := by
    rw [readyEvents_eq h]
    unfold isReady at hr
    simp only [Bool.and_eq_true] at hr
    unfold Events.isEmpty
    dsimp only
    rw [Bool.or_false, Bool.or_false, hr.2]
    rfl
  unfold Entry.collect
  dsimp only
  rw [hne, if_neg (by decide), readyEvents_eq h]
  have hcoll : et l = true → ∀ c, wants c l = true →
      (e.collected (flagOf c) || stateFromEvents ⟨fun c => reports c l, false, false⟩ (flagOf c)) = !fresh c (.reported (fun c => reports c l) :: l) := by
    intro he c hw
    rw [stateFromEvents_on, h.coll he c hw]
    simp only [fresh]
    cases fresh c l <;> cases reports c l <;> rfl
  cases ho : e.interest.oneshot with
  | false =>
    rw [if_neg (by decide)]
    have ho' : oneshot l = false := by rw [← h.once]; exact ho
    refine ⟨_, Prod.ext rfl (congrArg (fun d => some (_, d)) h.dat), rfl, ⟨h.leg, h.dat, h.edge, h.once, ?_, h.open1, h.open2, ?_, h.act, ?_⟩⟩
    · intro c; rw [wants, ho']; simp [h.want c]
    · intro c hw
      rw [wants, ho'] at hw
      exact h.state c (by simpa using hw)
    · intro he c hw
      rw [wants, ho'] at hw
      exact hcoll he c (by simpa using hw)
  | true =>
    rw [if_pos rfl]
    have ho' : oneshot l = true := by rw [← h.once]; exact ho
    refine ⟨_, Prod.ext rfl (congrArg (fun d => some (_, d)) h.dat), rfl, ⟨h.leg, h.dat, ?_, ?_, ?_, h.open1, h.open2, ?_, h.act, ?_⟩⟩
    · simp [Events.remove, h.edge, et]
    · simp [Events.remove, h.once, oneshot]
    · intro c
      simp [Events.remove, h.want c, wants, ho']
    · intro c hw
      rw [wants] at hw
      exact h.state c (by simp at hw; exact hw.1)
    · intro he c hw
      rw [wants] at hw
      exact hcoll he c (by simp at hw; exact hw.1)

/-! ## The order -/

/-- The ready set holds the queue of the specification, the front having the greatest priority; an entry's priority is
    that under which it is in the ready set. -/
structure Order (w : World) (fifo : List Key) : Prop where
  nodup : fifo.Nodup
  list : ∃ L : List (Int × Key), L.Perm w.ready ∧ L.map Prod.snd = fifo ∧ L.Pairwise (fun a b => a.1 > b.1) ∧ ∀ a ∈ L, w.counter < a.1
  pri : ∀ k p, (∃ e, w.monitoring k = some e ∧ e.pri = some p) ↔ (p, k) ∈ w.ready

theorem Order.mem {w : World} {fifo : List Key} (h : Order w fifo) (k : Key) :
    k ∈ fifo ↔ ∃ e p, w.monitoring k = some e ∧ e.pri = some p := by
  obtain ⟨L, h1, h2, _, _⟩ := h.list
  constructor
  · intro hk
    rw [← h2] at hk
    obtain ⟨⟨p, k'⟩, hm, rfl⟩ := List.mem_map.1 hk
    obtain ⟨e, he, hp⟩ := (h.pri _ _).2 (h1.mem_iff.1 hm)
    exact ⟨e, p, he, hp⟩
  · rintro ⟨e, p, he, hp⟩
    rw [← h2]
    exact List.mem_map.2 ⟨(p, k), h1.mem_iff.2 ((h.pri k p).1 ⟨e, he, hp⟩), rfl⟩

theorem pairwise_unique {L : List (Int × Key)} (h : L.Pairwise (fun a b => a.1 > b.1)) {a b : Int × Key} (ha : a ∈ L) (hb : b ∈ L)
    (e : a.1 = b.1) : a = b := by
  induction L with
  | nil => cases ha
  | cons c L ih =>
    rw [List.pairwise_cons] at h
    rcases List.mem_cons.1 ha with rfl | ha'
    · rcases List.mem_cons.1 hb with rfl | hb'
      · rfl
      · have := h.1 b hb'; omega
    · rcases List.mem_cons.1 hb with rfl | hb'
      · have := h.1 a ha'; omega
      · exact ih h.2 ha' hb'

theorem Order.pri_key {w : World} {fifo : List Key} (h : Order w fifo) {p : Int} {k : Key} (hm : (p, k) ∈ w.ready) {r : Int × Key}
    (hr : r ∈ w.ready) : r.1 = p ↔ r.2 = k := by
  obtain ⟨L, h1, _, h3, _⟩ := h.list
  constructor
  · intro e
    rw [pairwise_unique h3 (h1.mem_iff.2 hr) (h1.mem_iff.2 hm) e]
  · intro e
    obtain ⟨q, k'⟩ := r
    subst e
    obtain ⟨e1, a1, a2⟩ := (h.pri _ _).2 hm
    obtain ⟨e2, b1, b2⟩ := (h.pri _ _).2 hr
    rw [a1] at b1
    rw [← Option.some.inj b1, a2] at b2
    exact (Option.some.inj b2).symm

theorem Order.filter_eq {w : World} {fifo : List Key} (h : Order w fifo) {p : Int} {k : Key} (hm : (p, k) ∈ w.ready) :
    w.ready.filter (fun r => r.1 != p) = w.ready.filter (fun r => r.2 != k) := by
  apply List.filter_congr
  intro r hr
  have := h.pri_key hm hr
  rw [Bool.eq_iff_iff]
  simp [this]

theorem filter_map_snd (L : List (Int × Key)) (k : Key) : (L.filter (fun r => r.2 != k)).map Prod.snd = (L.map Prod.snd).filter (· != k) := by
  rw [List.filter_map]
  rfl

/-- An entry leaves the ready set. -/
theorem Order.remove {w w' : World} {fifo : List Key} (h : Order w fifo) {k : Key} {p : Int} {e : Entry} (he : w.monitoring k = some e) (hp : e.pri = some p)
    {v : Option Entry} (hv : ∀ e', v = some e' → e'.pri = none) (h1 : w'.counter = w.counter)
    (h2 : w'.monitoring = upd w.monitoring k v) (h3 : w'.ready = w.ready.filter (fun r => r.1 != p)) :
    Order w' (fifo.filter (· != k)) := by
  have hm : (p, k) ∈ w.ready := (h.pri k p).1 ⟨e, he, hp⟩
  obtain ⟨L, l1, l2, l3, l4⟩ := h.list
  rw [h.filter_eq hm] at h3
  refine ⟨h.nodup.filter _, ⟨L.filter (fun r => r.2 != k), ?_, ?_, l3.filter _, ?_⟩, ?_⟩
  · rw [h3]; exact l1.filter _
  · rw [filter_map_snd, l2]
  · intro a ha; rw [h1]; exact l4 a (List.mem_filter.1 ha).1
  · intro j q
    rw [h3, h2]
    unfold upd
    by_cases hj : j = k
    · subst hj
      rw [if_pos rfl]
      constructor
      · rintro ⟨e', a1, a2⟩; rw [hv e' a1] at a2; cases a2
      · intro hh; simp at hh
    · rw [if_neg hj, h.pri j q, List.mem_filter]
      simp [hj]

/-- Nothing that concerns the order changes. -/
theorem Order.same {w w' : World} {fifo : List Key} (h : Order w fifo) (h1 : w'.counter = w.counter) (h3 : w'.ready = w.ready)
    (h2 : ∀ j p, (∃ e, w'.monitoring j = some e ∧ e.pri = some p) ↔ (∃ e, w.monitoring j = some e ∧ e.pri = some p)) : Order w' fifo := by
  refine ⟨h.nodup, ?_, fun j p => ?_⟩
  · rw [h1, h3]; exact h.list
  · rw [h2, h3]; exact h.pri j p

theorem Order.upd {w w' : World} {fifo : List Key} (h : Order w fifo) {k : Key} {v : Option Entry} (h1 : w'.counter = w.counter) (h3 : w'.ready = w.ready)
    (h2 : w'.monitoring = upd w.monitoring k v) (hv : v.bind Entry.pri = (w.monitoring k).bind Entry.pri) : Order w' fifo := by
  refine h.same h1 h3 fun j p => ?_
  rw [h2]
  unfold Epoll.upd
  by_cases hj : j = k
  · subst hj
    rw [if_pos rfl]
    cases v with
    | none =>
      cases hm : w.monitoring j with
      | none => simp
      | some e => rw [hm] at hv; simp at hv; simp [← hv]
    | some e' =>
      cases hm : w.monitoring j with
      | none => rw [hm] at hv; simp at hv; simp [hv]
      | some e => rw [hm] at hv; simp at hv; simp [hv]
  · rw [if_neg hj]

theorem filter_absent {fifo : List Key} {k : Key} (h : k ∉ fifo) : fifo.filter (· != k) = fifo := by
  rw [List.filter_eq_self]
  intro a ha
  have : a ≠ k := by rintro rfl; exact h ha
  simpa using this

/-- What `refresh_ready` does. -/
theorem refreshReady_spec {w : World} {fifo : List Key} (h : Order w fifo) {k : Key} {e : Entry} (he : w.monitoring k = some e) :
    ∃ p, w.refreshReady k = { w with counter := (w.refreshReady k).counter, ready := (w.refreshReady k).ready, monitoring := upd w.monitoring k (some { e with pri := p }) } ∧
      Order (w.refreshReady k) (place e.hasReady k fifo) := by
  unfold World.refreshReady place
  rw [he]
  dsimp only
  cases hr : e.hasReady with
  | true =>
    rw [if_pos rfl, if_pos rfl]
    cases hp : e.pri with
    | none =>
      refine ⟨some w.counter, rfl, ?_⟩
      have hk : k ∉ fifo := by
        rw [h.mem]
        rintro ⟨e', p, a1, a2⟩
        rw [he] at a1
        rw [← Option.some.inj a1, hp] at a2
        cases a2
      rw [if_neg hk]
      obtain ⟨L, l1, l2, l3, l4⟩ := h.list
      refine ⟨?_, ⟨L ++ [(w.counter, k)], ?_, ?_, ?_, ?_⟩, ?_⟩
      · rw [List.nodup_append]
        exact ⟨h.nodup, by simp, by intro a ha b hb; rw [List.mem_singleton.1 hb]; rintro rfl; exact hk ha⟩
      · exact (List.perm_append_singleton _ _).trans (l1.cons _)
      · simp [l2]
      · rw [List.pairwise_append]
        exact ⟨l3, by simp, by intro a ha b hb; rw [List.mem_singleton.1 hb]; exact l4 a ha⟩
      · intro a ha
        dsimp only
        rcases List.mem_append.1 ha with ha | ha
        · have := l4 a ha; omega
        · rw [List.mem_singleton.1 ha]; dsimp only; omega
      · intro j p
        dsimp only
        unfold upd
        by_cases hj : j = k
        · subst hj
          rw [if_pos rfl]
          constructor
          · rintro ⟨e', a1, a2⟩
            rw [← Option.some.inj a1] at a2
            rw [← Option.some.inj a2]
            exact List.mem_cons_self
          · intro hh
            rcases List.mem_cons.1 hh with hh | hh
            · exact ⟨_, rfl, by rw [(Prod.mk.inj hh).1]⟩
            · obtain ⟨e', a1, a2⟩ := (h.pri _ _).2 hh
              rw [he] at a1
              rw [← Option.some.inj a1, hp] at a2
              cases a2
        · rw [if_neg hj, h.pri j p, List.mem_cons]
          constructor
          · exact .inr
          · rintro (hh | hh)
            · exact absurd (Prod.mk.inj hh).2 hj
            · exact hh
    | some p =>
      refine ⟨some p, ?_, ?_⟩
      · have : upd w.monitoring k (some { e with pri := some p }) = w.monitoring := by
          funext j
          unfold upd
          by_cases hj : j = k
          · rw [if_pos hj, hj, he, ← hp]
          · rw [if_neg hj]
        rw [this]
      · rw [if_pos ((h.mem k).2 ⟨e, p, he, hp⟩)]
        exact h
  | false =>
    rw [if_neg (by decide), if_neg (by decide)]
    cases hp : e.pri with
    | none =>
      refine ⟨none, ?_, ?_⟩
      · have : upd w.monitoring k (some { e with pri := none }) = w.monitoring := by
          funext j
          unfold upd
          by_cases hj : j = k
          · rw [if_pos hj, hj, he, ← hp]
          · rw [if_neg hj]
        rw [this]
      · have hk : k ∉ fifo := by
          rw [h.mem]
          rintro ⟨e', p, a1, a2⟩
          rw [he] at a1
          rw [← Option.some.inj a1, hp] at a2
          cases a2
        rw [filter_absent hk]
        exact h
    | some p =>
      refine ⟨none, rfl, ?_⟩
      exact h.remove he hp (v := some { e with pri := none }) (fun e' hh => by rw [← Option.some.inj hh]) rfl rfl rfl

/-! ### The heap -/

theorem popMax_none {l : List (Int × Key)} : popMax l = none ↔ l = [] := by
  cases l with
  | nil => simp [popMax]
  | cons c rest =>
    simp only [popMax]
    cases popMax rest with
    | none => simp
    | some x =>
      dsimp only
      split <;> simp

theorem popMax_some : ∀ {l : List (Int × Key)} {m : Int × Key} {others : List (Int × Key)}, popMax l = some (m, others) →
    l.Perm (m :: others) ∧ ∀ a ∈ others, a.1 ≤ m.1
  | [], _, _, h => by cases h
  | c :: rest, m, others, h => by
    simp only [popMax] at h
    cases hr : popMax rest with
    | none =>
      rw [hr] at h
      obtain ⟨rfl, rfl⟩ := Prod.mk.inj (Option.some.inj h)
      rw [popMax_none.1 hr]
      exact ⟨.refl _, by simp⟩
    | some x =>
      obtain ⟨m', o'⟩ := x
      rw [hr] at h
      dsimp only at h
      obtain ⟨p1, p2⟩ := popMax_some hr
      split at h
      · rename_i hgt
        obtain ⟨rfl, rfl⟩ := Prod.mk.inj (Option.some.inj h)
        refine ⟨(p1.cons c).trans (.swap _ _ _), ?_⟩
        intro a ha
        rcases List.mem_cons.1 ha with rfl | ha
        · omega
        · exact p2 a ha
      · rename_i hgt
        obtain ⟨rfl, rfl⟩ := Prod.mk.inj (Option.some.inj h)
        refine ⟨.refl _, ?_⟩
        intro a ha
        rcases List.mem_cons.1 (p1.mem_iff.1 ha) with rfl | ha
        · omega
        · have := p2 a ha; omega

theorem popMax_front {l L : List (Int × Key)} {r : Int × Key} (hp : (r :: L).Perm l) (hs : (r :: L).Pairwise (fun a b => a.1 > b.1)) :
    ∃ others, popMax l = some (r, others) ∧ L.Perm others := by
  cases h : popMax l with
  | none =>
    rw [popMax_none.1 h] at hp
    exact absurd hp.length_eq (by simp)
  | some x =>
    obtain ⟨m, others⟩ := x
    obtain ⟨p1, p2⟩ := popMax_some h
    have hm : m ∈ r :: L := (hp.trans p1).mem_iff.2 List.mem_cons_self
    have hr : r ∈ m :: others := (hp.trans p1).mem_iff.1 List.mem_cons_self
    have : m = r := by
      rcases List.mem_cons.1 hm with e | hm
      · exact e
      · rcases List.mem_cons.1 hr with e | hr
        · exact e.symm
        · have h1 := (List.pairwise_cons.1 hs).1 m hm
          have h2 := p2 r hr
          omega
    subst this
    exact ⟨others, rfl, List.Perm.cons_inv (hp.trans p1)⟩

/-! ### Collecting -/

/-- Every entry is what its log says. -/
def Mon (w : World) (log : Key → Log) : Prop :=
  ∀ k, (w.monitoring k = none → log k = []) ∧ ∀ e, w.monitoring k = some e → log k ≠ [] ∧ Agrees (w.legacy k.2) e (log k)

/-- Only the entries and the ready set differ. -/
structure Frame (w w' : World) : Prop where
  files : w'.files = w.files
  legacy : w'.legacy = w.legacy
  listeners : w'.listeners = w.listeners
  queue : w'.queue = w.queue
  readable : w'.readable = w.readable

/-- The state of the loop: what is still to be popped, and what was set aside. -/
structure Loop (w : World) (keep : List (Int × Key)) (fifo : List Key) (log : Key → Log) : Prop where
  nodup : (fifo ++ keep.map Prod.snd).Nodup
  list : ∃ L : List (Int × Key), L.Perm w.ready ∧ L.map Prod.snd = fifo ∧ (L ++ keep).Pairwise (fun a b => a.1 > b.1) ∧ ∀ a ∈ L ++ keep, w.counter < a.1
  pri : ∀ k p, (∃ e, w.monitoring k = some e ∧ e.pri = some p) ↔ (p, k) ∈ w.ready ++ keep
  mon : Mon w log
  isr : ∀ k ∈ fifo, isReady (w.legacy k.2) (log k) = true

/-- What is reported about a registration. -/
def report (l : Log) : Events × Nat := (⟨fun c => reports c l, false, false⟩, data l)

/-- The log after the report. -/
def after (l : Log) : Log := .reported (fun c => reports c l) :: l

theorem collectOne_spec {w : World} {keep : List (Int × Key)} {k : Key} {fifo : List Key} {log : Key → Log} (h : Loop w keep (k :: fifo) log) :
    ∃ r others w2 more, popMax w.ready = some (r, others) ∧ r.2 = k ∧
      World.collectOne { w with ready := others } k = .ok (w2, report (log k), more) ∧ Frame w w2 ∧
      more.map Prod.snd = (if isReady (w.legacy k.2) (after (log k)) then [k] else []) ∧
      Loop w2 (keep ++ more) fifo (fun j => if j = k then after (log k) else log j) := by
  obtain ⟨L, l1, l2, l3, l4⟩ := h.list
  cases L with
  | nil => cases l2
  | cons r L =>
    obtain ⟨e1, e2⟩ := List.cons.inj l2
    have l3' := l3
    rw [List.cons_append, List.pairwise_cons] at l3'
    obtain ⟨others, hpop, hperm⟩ := popMax_front l1 (List.pairwise_append.1 l3).1
    obtain ⟨p, k'⟩ := r
    dsimp only at e1
    subst e1
    have hmem : (p, k') ∈ w.ready := l1.mem_iff.1 List.mem_cons_self
    obtain ⟨e, he, hp⟩ := (h.pri k' p).2 (List.mem_append_left _ hmem)
    obtain ⟨hne, hag⟩ := (h.mon k').2 e he
    have hr := h.isr k' List.mem_cons_self
    obtain ⟨e', hc, hc2, hag'⟩ := collect_ok (agrees_pri hag none) hr
    have hnd := h.nodup
    rw [List.cons_append, List.nodup_cons] at hnd
    -- membership in what remains
    have hothers : ∀ q j, (q, j) ∈ others ++ keep ↔ ((q, j) ∈ w.ready ++ keep ∧ j ≠ k') := by
      intro q j
      have hiff : (q, j) ∈ w.ready ++ keep ↔ (q, j) ∈ (p, k') :: (others ++ keep) := by
        rw [List.mem_append, List.mem_cons, List.mem_append]
        rw [← l1.mem_iff, List.mem_cons, hperm.mem_iff, or_assoc]
      have hnot : ∀ q, (q, k') ∉ others ++ keep := by
        intro q hq
        apply hnd.1
        rcases List.mem_append.1 hq with hq | hq
        · rw [← e2]
          exact List.mem_append_left _ (List.mem_map.2 ⟨_, hperm.mem_iff.2 hq, rfl⟩)
        · exact List.mem_append_right _ (List.mem_map.2 ⟨_, hq, rfl⟩)
      rw [hiff, List.mem_cons]
      constructor
      · intro hh; exact ⟨.inr hh, by rintro rfl; exact hnot q hh⟩
      · rintro ⟨hh | hh, hj⟩
        · exact absurd (Prod.mk.inj hh).2 hj
        · exact hh
    have hmon : ∀ (w2 : World) (e2 : Entry), w2.legacy = w.legacy → Agrees (w.legacy k'.2) e2 (after (log k')) →
        w2.monitoring = upd w.monitoring k' (some e2) → Mon w2 (fun j => if j = k' then after (log k') else log j) := by
      intro w2 e2 h1 h2 h3 j
      rw [h3, h1]
      unfold upd
      by_cases hj : j = k'
      · subst hj
        rw [if_pos rfl]
        dsimp only
        rw [if_pos rfl]
        refine ⟨(fun hh => by cases hh), fun e3 hh => ⟨by simp [after], ?_⟩⟩
        rw [← Option.some.inj hh]; exact h2
      · rw [if_neg hj]
        dsimp only
        rw [if_neg hj]
        exact h.mon j
    have hisr : ∀ (w2 : World), w2.legacy = w.legacy → ∀ j ∈ fifo, isReady (w2.legacy j.2) (if j = k' then after (log k') else log j) = true := by
      intro w2 h1 j hj
      have : j ≠ k' := by rintro rfl; exact hnd.1 (List.mem_append_left _ hj)
      rw [if_neg this, h1]
      exact h.isr j (List.mem_cons_of_mem _ hj)
    have hlow : ∀ a ∈ L ++ keep, w.counter < a.1 := fun a ha => l4 a (by rw [List.cons_append]; exact List.mem_cons_of_mem _ ha)
    have hready : e'.hasReady = isReady (w.legacy k'.2) (after (log k')) := hasReady_eq hag'
    have hres : World.collectOne { w with ready := others } k' =
        if e'.hasReady then .ok ({ w with ready := others, counter := w.counter - 1, monitoring := upd w.monitoring k' (some { e' with pri := some w.counter }) }, report (log k'), [(w.counter, k')])
        else .ok ({ w with ready := others, monitoring := upd w.monitoring k' (some e') }, report (log k'), []) := by
      unfold World.collectOne
      dsimp only
      rw [he, R.unwrap_some, R.bind_ok]
      rw [show ({ e with pri := none } : Entry).hasReady = true from (hasReady_eq (agrees_pri hag none)).trans hr, R.assert_true, R.bind_ok]
      rw [hc]
      dsimp only
      rw [R.unwrap_some, R.bind_ok]
      rfl
    cases hb : isReady (w.legacy k'.2) (after (log k')) with
    | true =>
      refine ⟨(p, k'), others, { w with ready := others, counter := w.counter - 1, monitoring := upd w.monitoring k' (some { e' with pri := some w.counter }) },
        [(w.counter, k')], hpop, rfl, by rw [hres, hready, hb]; rfl, ⟨rfl, rfl, rfl, rfl, rfl⟩, rfl, ?_⟩
      refine ⟨?_, ⟨L, hperm, e2, ?_, ?_⟩, ?_, hmon _ { e' with pri := some w.counter } rfl (agrees_pri hag' _) rfl, hisr _ rfl⟩
      · rw [List.map_append, ← List.append_assoc]
        show ((fifo ++ keep.map Prod.snd) ++ [k']).Nodup
        rw [List.nodup_append]
        exact ⟨hnd.2, by simp, by intro a ha b hb'; rw [List.mem_singleton.1 hb']; rintro rfl; exact hnd.1 ha⟩
      · rw [← List.append_assoc, List.pairwise_append]
        exact ⟨l3'.2, by simp, by intro a ha b hb'; rw [List.mem_singleton.1 hb']; exact hlow a ha⟩
      · intro a ha
        rw [← List.append_assoc] at ha
        dsimp only
        rcases List.mem_append.1 ha with ha | ha
        · have := hlow a ha; omega
        · rw [List.mem_singleton.1 ha]; dsimp only; omega
      · intro j q
        dsimp only
        rw [← List.append_assoc, List.mem_append, List.mem_singleton, hothers q j]
        unfold upd
        by_cases hj : j = k'
        · subst hj
          rw [if_pos rfl]
          constructor
          · rintro ⟨e3, a1, a2⟩
            rw [← Option.some.inj a1] at a2
            right; rw [← Option.some.inj a2]
          · rintro (hh | hh)
            · exact absurd rfl hh.2
            · exact ⟨_, rfl, by rw [(Prod.mk.inj hh).1]⟩
        · rw [if_neg hj, h.pri j q]
          constructor
          · intro hh; exact .inl ⟨hh, hj⟩
          · rintro (hh | hh)
            · exact hh.1
            · exact absurd (Prod.mk.inj hh).2 hj
    | false =>
      refine ⟨(p, k'), others, { w with ready := others, monitoring := upd w.monitoring k' (some e') },
        [], hpop, rfl, by rw [hres, hready, hb]; rfl, ⟨rfl, rfl, rfl, rfl, rfl⟩, rfl, ?_⟩
      rw [List.append_nil]
      refine ⟨hnd.2, ⟨L, hperm, e2, l3'.2, hlow⟩, ?_, hmon _ e' rfl hag' rfl, hisr _ rfl⟩
      intro j q
      dsimp only
      rw [hothers q j]
      unfold upd
      by_cases hj : j = k'
      · subst hj
        rw [if_pos rfl]
        constructor
        · rintro ⟨e3, a1, a2⟩
          rw [← Option.some.inj a1, hc2] at a2
          cases a2
        · rintro ⟨_, hh⟩; exact absurd rfl hh
      · rw [if_neg hj, h.pri j q]
        exact ⟨fun hh => ⟨hh, hj⟩, fun hh => hh.1⟩

theorem collectLoop_spec : ∀ (room : Nat) (w : World) (out : List (Events × Nat)) (keep : List (Int × Key)) (fifo : List Key) (log : Key → Log),
    Loop w keep fifo log →
    ∃ w' more, World.collectLoop room w out keep = .ok (w', out ++ (fifo.take room).map (fun k => report (log k)), keep ++ more) ∧ Frame w w' ∧
      more.map Prod.snd = (fifo.take room).filter (fun k => isReady (w.legacy k.2) (after (log k))) ∧
      Loop w' (keep ++ more) (fifo.drop room) (fun k => if k ∈ fifo.take room then after (log k) else log k) := by
  intro room
  induction room with
  | zero =>
    intro w out keep fifo log h
    refine ⟨w, [], by simp [World.collectLoop], ⟨rfl, rfl, rfl, rfl, rfl⟩, by simp, ?_⟩
    simpa using h
  | succ room ih =>
    intro w out keep fifo log h
    cases fifo with
    | nil =>
      obtain ⟨L, l1, l2, _⟩ := h.list
      have : w.ready = [] := by
        rw [List.map_eq_nil_iff] at l2
        rw [l2] at l1
        exact l1.nil_eq.symm
      refine ⟨w, [], ?_, ⟨rfl, rfl, rfl, rfl, rfl⟩, by simp, ?_⟩
      · unfold World.collectLoop
        rw [popMax_none.2 this]
        simp
      · simpa using h
    | cons k fifo =>
      obtain ⟨r, others, w2, more, hpop, hk, hone, hf, hmore, hl⟩ := collectOne_spec h
      obtain ⟨w3, more', hloop, hf', hmore', hl'⟩ := ih w2 (out ++ [report (log k)]) (keep ++ more) fifo _ hl
      have hnk : ∀ j ∈ fifo.take room, j ≠ k := by
        rintro j hj rfl
        have := h.nodup
        rw [List.cons_append, List.nodup_cons] at this
        exact this.1 (List.mem_append_left _ (List.mem_of_mem_take hj))
      refine ⟨w3, more ++ more', ?_, ⟨hf'.files.trans hf.files, hf'.legacy.trans hf.legacy, hf'.listeners.trans hf.listeners, hf'.queue.trans hf.queue, hf'.readable.trans hf.readable⟩, ?_, ?_⟩
      · unfold World.collectLoop
        rw [hpop]
        dsimp only
        rw [hk, hone, R.bind_ok]
        dsimp only
        rw [hloop]
        congr 2
        rw [List.take_succ_cons, List.map_cons, List.append_assoc, List.append_assoc]
        congr 1
        rw [List.singleton_append]
        congr 2
        apply List.map_congr_left
        intro j hj
        rw [if_neg (hnk j hj)]
      · rw [List.map_append, hmore, hmore', List.take_succ_cons, List.filter_cons, hf.legacy]
        have : (fifo.take room).filter (fun j => isReady (w.legacy j.2) (after (if j = k then after (log k) else log j))) =
            (fifo.take room).filter (fun j => isReady (w.legacy j.2) (after (log j))) := by
          apply List.filter_congr
          intro j hj
          rw [if_neg (hnk j hj)]
        rw [this]
        split <;> rfl
      · rw [← List.append_assoc]
        have : (fun j => if j ∈ (k :: fifo).take (room + 1) then after (log j) else log j) =
            (fun j => if j ∈ fifo.take room then after (if j = k then after (log k) else log j) else if j = k then after (log k) else log j) := by
          funext j
          rw [List.take_succ_cons]
          by_cases hj : j = k
          · subst hj
            rw [if_pos List.mem_cons_self, if_neg (fun hh => hnk _ hh rfl), if_pos rfl]
          · by_cases hm : j ∈ fifo.take room
            · rw [if_pos (List.mem_cons_of_mem _ hm), if_pos hm, if_neg hj]
            · rw [if_neg (by rw [List.mem_cons]; rintro (hh | hh); exact hj hh; exact hm hh), if_neg hm, if_neg hj]
        rw [this, List.drop_succ_cons]
        exact hl'

/-! ## Invariants -/

/-- From the state last told, the pending callbacks lead to the state of the file. -/
def Chain (s : Flags) : List Note → Flags → Prop
  | [], f => s = f
  | n :: ns, f => (∀ x, n.changed x = (n.state x != s x)) ∧ Chain n.state ns f

theorem chain_append {s : Flags} {ns : List Note} {f : Flags} (h : Chain s ns f) {n : Note} (hn : ∀ x, n.changed x = (n.state x != f x)) :
    Chain s (ns ++ [n]) n.state := by
  induction ns generalizing s with
  | nil =>
    have : s = f := h
    subst this
    exact ⟨hn, rfl⟩
  | cons m ns ih => exact ⟨h.1, ih h.2⟩

structure Inv (w : World) (g : Ghost) : Prop where
  mon : Mon w g.log
  order : Order w g.fifo
  isr : ∀ k, k ∈ g.fifo ↔ isReady (w.legacy k.2) (g.log k) = true
  flag : w.readable = !g.fifo.isEmpty
  lkeys : (w.listeners.map Prod.fst).Nodup
  lmem : ∀ k, k ∈ w.listeners.map Prod.fst ↔ g.log k ≠ []
  looks : ∀ m ∈ w.listeners, Looks (w.legacy m.1.2) m.2.1 m.2.2 (g.log m.1)
  notes : ∀ n ∈ w.queue, g.log n.key ≠ [] → Looks (w.legacy n.key.2) n.mon n.monGrew (g.log n.key)
  chain : ∀ k, g.log k ≠ [] → Chain (lastState (g.log k)) (w.queue.filter (fun n => n.key == k)) (w.files k.2)
  news : ∀ k, (g.log k = [] → g.news k = []) ∧
    (g.log k ≠ [] → g.news k = (w.queue.filter (fun n => n.key == k)).map (fun n => (n.state, n.grew)))

theorem isReady_nil (legacy : Bool) : isReady legacy [] = false := by
  simp [isReady, reports, wants]

theorem Order.flag {w : World} {fifo : List Key} (h : Order w fifo) : w.ready.isEmpty = fifo.isEmpty := by
  obtain ⟨L, l1, l2, _⟩ := h.list
  have h1 := l1.length_eq
  have h2 := congrArg List.length l2
  rw [List.length_map] at h2
  rw [Bool.eq_iff_iff, List.isEmpty_iff_length_eq_zero, List.isEmpty_iff_length_eq_zero]
  omega

theorem Order.refreshState {w : World} {fifo : List Key} (h : Order w fifo) : Order w.refreshState fifo := ⟨h.nodup, h.list, h.pri⟩

theorem mem_place {ready : Bool} {k j : Key} {fifo : List Key} : j ∈ place ready k fifo ↔ if j = k then ready = true else j ∈ fifo := by
  unfold place
  by_cases hj : j = k
  · subst hj
    cases ready with
    | true => by_cases hm : j ∈ fifo <;> simp [hm]
    | false => simp
  · rw [if_neg hj]
    cases ready with
    | true =>
      rw [if_pos rfl]
      by_cases hm : k ∈ fifo
      · rw [if_pos hm]
      · rw [if_neg hm]; simp [hj]
    | false => simp [hj]

theorem new_inv (files : Nat → Flags) (legacy : Nat → Bool) : Inv (World.new files legacy) ⟨fun _ => [], [], fun _ => []⟩ := by
  refine ⟨fun k => ⟨fun _ => rfl, fun e he => by cases he⟩, ⟨.nil, ⟨[], .refl _, rfl, .nil, fun a ha => by cases ha⟩, fun k p => ⟨?_, fun hh => by cases hh⟩⟩,
    fun k => ?_, rfl, .nil, fun k => ?_, (fun m hm => by cases hm), (fun n hn => by cases hn), (fun k hk => absurd rfl hk), fun _ => ⟨fun _ => rfl, fun _ => rfl⟩⟩
  · rintro ⟨e, he, _⟩; cases he
  · rw [isReady_nil]; simp
  · simp [World.new]

/-- The order of the queue after something happened to one registration. -/
theorem isr_set {w : World} {g : Ghost} (h : ∀ k, k ∈ g.fifo ↔ isReady (w.legacy k.2) (g.log k) = true) (k : Key) (l : Log) (j : Key) :
    j ∈ place (isReady (w.legacy k.2) l) k g.fifo ↔ isReady (w.legacy j.2) (g.set k l j) = true := by
  rw [mem_place]
  unfold Ghost.set
  by_cases hj : j = k
  · subst hj
    rw [if_pos rfl, if_pos rfl]
  · rw [if_neg hj, if_neg hj]
    exact h j

theorem isr_drop {w : World} {g : Ghost} (h : ∀ k, k ∈ g.fifo ↔ isReady (w.legacy k.2) (g.log k) = true) (k : Key) (j : Key) :
    j ∈ g.fifo.filter (· != k) ↔ isReady (w.legacy j.2) (g.set k [] j) = true := by
  have := isr_set h k [] j
  rw [isReady_nil] at this
  exact this

theorem mon_set {w w' : World} {g : Ghost} (h : Mon w g.log) {k : Key} {e : Entry} {l : Log} (hl : w'.legacy = w.legacy)
    (hm : w'.monitoring = upd w.monitoring k (some e)) (ha : Agrees (w.legacy k.2) e l) (hne : l ≠ []) : Mon w' (g.set k l) := by
  intro j
  rw [hm, hl]
  unfold upd Ghost.set
  by_cases hj : j = k
  · subst hj
    rw [if_pos rfl, if_pos rfl]
    exact ⟨(fun hh => by cases hh), fun e' he' => ⟨hne, by rw [← Option.some.inj he']; exact ha⟩⟩
  · rw [if_neg hj, if_neg hj]
    exact h j

theorem mon_drop {w w' : World} {g : Ghost} (h : Mon w g.log) {k : Key} (hl : w'.legacy = w.legacy)
    (hm : w'.monitoring = upd w.monitoring k none) : Mon w' (g.set k []) := by
  intro j
  rw [hm, hl]
  unfold upd Ghost.set
  by_cases hj : j = k
  · subst hj
    rw [if_pos rfl, if_pos rfl]
    exact ⟨fun _ => rfl, fun e' he' => by cases he'⟩
  · rw [if_neg hj, if_neg hj]
    exact h j

theorem hasReady_closed {e : Entry} (h : e.state .closed = true) : e.hasReady = false := by
  unfold Entry.hasReady
  rw [h]
  cases e.legacy <;> rfl

theorem upd_upd (m : Key → Option Entry) (k : Key) (a b : Option Entry) : upd (upd m k a) k b = upd m k b := by
  funext j
  unfold upd
  by_cases hj : j = k
  · rw [if_pos hj, if_pos hj]
  · rw [if_neg hj, if_neg hj, if_neg hj]

theorem upd_self (m : Key → Option Entry) (k : Key) (a : Option Entry) : upd m k a k = a := if_pos rfl

theorem looks_told {legacy mon mg l} {s : Flags} {grew : Bool} (h : Looks legacy mon mg l) : Looks legacy mon mg (.told s grew :: l) :=
  ⟨h.conds, h.closed, h.all, h.grew⟩

theorem filter_keys_mem {ls : List (Key × Flags × Bool)} {k j : Key} :
    j ∈ (ls.filter (fun l => l.1 != k)).map Prod.fst ↔ j ∈ ls.map Prod.fst ∧ j ≠ k := by
  simp only [List.mem_map, List.mem_filter]
  constructor
  · rintro ⟨m, ⟨h1, h2⟩, rfl⟩
    exact ⟨⟨m, h1, rfl⟩, by simpa using h2⟩
  · rintro ⟨⟨m, h1, rfl⟩, h2⟩
    exact ⟨m, ⟨h1, by simpa using h2⟩, rfl⟩

theorem filter_keys_nodup {ls : List (Key × Flags × Bool)} (h : (ls.map Prod.fst).Nodup) (p : Key × Flags × Bool → Bool) :
    ((ls.filter p).map Prod.fst).Nodup := h.sublist (List.filter_sublist.map _)

theorem rest_news {w : World} {g : Ghost} (h : Inv w g) (hq : w.queue = []) (k : Key) : g.news k = [] := by
  by_cases hk : g.log k = []
  · exact (h.news k).1 hk
  · rw [(h.news k).2 hk, hq]; rfl

/-- After the end of `ctl`, for an entry that is there. -/
theorem settle_spec {w : World} {fifo : List Key} (h : Order w fifo) {k : Key} {e : Entry} (he : w.monitoring k = some e) :
    ∃ p, (w.settle k).files = w.files ∧ (w.settle k).legacy = w.legacy ∧ (w.settle k).queue = w.queue ∧
      (w.settle k).monitoring = upd w.monitoring k (some { e with pri := p }) ∧
      (w.settle k).listeners = w.listeners.filter (fun l => l.1 != k) ++ [(k, (fun f => e.listenerState f || f == .closed), e.listenerGrew)] ∧
      Order (w.settle k) (place e.hasReady k fifo) ∧ (w.settle k).readable = !(place e.hasReady k fifo).isEmpty := by
  obtain ⟨p, h1, h2⟩ := refreshReady_spec h he
  have hm : (w.refreshReady k).monitoring k = some { e with pri := p } := by rw [h1]; exact upd_self _ _ _
  have hs : w.settle k = World.refreshState { w.refreshReady k with listeners := w.listeners.filter (fun l => l.1 != k) ++ [(k, (fun f => e.listenerState f || f == .closed), e.listenerGrew)] } := by
    unfold World.settle World.refreshListener
    rw [hm]
    have : (w.refreshReady k).listeners = w.listeners := by rw [h1]
    rw [this]
    rfl
  rw [hs]
  refine ⟨p, by rw [h1]; rfl, by rw [h1]; rfl, by rw [h1]; rfl, by rw [h1]; rfl, by rw [h1]; rfl, ?_, ?_⟩
  · exact ⟨h2.nodup, h2.list, h2.pri⟩
  · show (!(w.refreshReady k).ready.isEmpty) = _
    rw [h2.flag]

theorem armed_inv {w w1 : World} {g : Ghost} (h : Inv w g) (hq : w.queue = []) {k : Key} {e : Entry} {ev : Events} {d : Nat}
    (ha : Agrees (w.legacy k.2) e [.armed ev d (w.files k.2)]) (hw1 : w1 = { w with monitoring := upd w.monitoring k (some e) })
    (hp : e.pri = (w.monitoring k).bind Entry.pri) :
    Inv (w1.settle k) ⟨g.set k [.armed ev d (w.files k.2)], place (isReady (w.legacy k.2) [.armed ev d (w.files k.2)]) k g.fifo, g.news⟩ := by
  have ho : Order w1 g.fifo := by
    rw [hw1]
    exact h.order.upd (v := some e) rfl rfl rfl hp
  have he : w1.monitoring k = some e := by rw [hw1]; exact upd_self _ _ _
  obtain ⟨p, s1, s2, s3, s4, s5, s6, s7⟩ := settle_spec ho he
  have hr : e.hasReady = isReady (w.legacy k.2) [.armed ev d (w.files k.2)] := hasReady_eq ha
  rw [hr] at s6 s7
  have e1 : w1.legacy = w.legacy := by rw [hw1]
  have e2 : w1.files = w.files := by rw [hw1]
  have e3 : w1.queue = [] := by rw [hw1]; exact hq
  have e4 : w1.listeners = w.listeners := by rw [hw1]
  have e5 : (w1.settle k).monitoring = upd w.monitoring k (some { e with pri := p }) := by
    rw [s4, hw1]; exact upd_upd _ _ _ _
  rw [e1] at s2; rw [e2] at s1; rw [e3] at s3; rw [e4] at s5
  refine ⟨mon_set h.mon s2 e5 (agrees_pri ha p) (by simp), s6, ?_, s7, ?_, ?_, ?_, ?_, ?_, ?_⟩
  · intro j; rw [s2]; exact isr_set h.isr k _ j
  · rw [s5, List.map_append, List.nodup_append]
    refine ⟨filter_keys_nodup h.lkeys _, by simp, ?_⟩
    intro a ha' b hb
    have hb : b = k := by simpa using hb
    rw [hb]
    exact (filter_keys_mem.1 ha').2
  · intro j
    rw [s5, List.map_append, List.mem_append, filter_keys_mem, h.lmem j]
    unfold Ghost.set
    dsimp only
    by_cases hj : j = k
    · subst hj
      simp
    · rw [if_neg hj]; simp [hj]
  · intro m hm
    rw [s5] at hm
    rw [s2]
    rcases List.mem_append.1 hm with hm | hm
    · obtain ⟨hm1, hm2⟩ := List.mem_filter.1 hm
      have : m.1 ≠ k := by simpa using hm2
      unfold Ghost.set
      dsimp only
      rw [if_neg this]
      exact h.looks m hm1
    · rw [List.mem_singleton.1 hm]
      unfold Ghost.set
      dsimp only
      rw [if_pos rfl]
      exact looks_listener ha
  · intro n hn; rw [s3] at hn; cases hn
  · intro j hj
    rw [s3, s1]
    unfold Ghost.set at hj ⊢
    dsimp only at hj ⊢
    by_cases hjk : j = k
    · subst hjk
      rw [if_pos rfl]
      rfl
    · rw [if_neg hjk] at hj ⊢
      have := h.chain j hj
      rw [hq] at this
      exact this
  · intro j
    rw [s3]
    exact ⟨fun _ => rest_news h hq j, fun _ => rest_news h hq j⟩

/-- At rest, a registered file is not closed, and its state is the one known. -/
theorem rest_state {w : World} {g : Ghost} (h : Inv w g) (hq : w.queue = []) {k : Key} (hk : g.log k ≠ []) :
    lastState (g.log k) = w.files k.2 ∧ w.files k.2 .closed = false := by
  have h1 : lastState (g.log k) = w.files k.2 := by
    have := h.chain k hk
    rw [hq] at this
    exact this
  refine ⟨h1, ?_⟩
  cases hm : w.monitoring k with
  | none => exact absurd ((h.mon k).1 hm) hk
  | some e =>
    rw [← h1]
    exact ((h.mon k).2 e hm).2.open2

theorem dropped_inv {w w' : World} {g : Ghost} (h : Inv w g) {k : Key} (h1 : w'.files = w.files) (h2 : w'.legacy = w.legacy)
    (h3 : w'.listeners = w.listeners.filter (fun l => l.1 != k)) (h4 : ∀ n ∈ w'.queue, n ∈ w.queue)
    (h4' : ∀ j, j ≠ k → w'.queue.filter (fun n => n.key == j) = w.queue.filter (fun n => n.key == j))
    (h5 : w'.monitoring = upd w.monitoring k none)
    (h6 : Order w' (g.fifo.filter (· != k))) (h7 : w'.readable = !(g.fifo.filter (· != k)).isEmpty)
    {news : Key → List (Flags × Bool)} (h8 : news k = []) (h9 : ∀ j, j ≠ k → news j = g.news j) :
    Inv w' ⟨g.set k [], g.fifo.filter (· != k), news⟩ := by
  refine ⟨mon_drop h.mon h2 h5, h6, fun j => by rw [h2]; exact isr_drop h.isr k j, h7, by rw [h3]; exact filter_keys_nodup h.lkeys _, ?_, ?_, ?_, ?_, ?_⟩
  · intro j
    rw [h3, filter_keys_mem, h.lmem j]
    unfold Ghost.set
    dsimp only
    by_cases hj : j = k
    · subst hj; simp
    · rw [if_neg hj]; simp [hj]
  · intro m hm
    rw [h3] at hm
    obtain ⟨hm1, hm2⟩ := List.mem_filter.1 hm
    have : m.1 ≠ k := by simpa using hm2
    rw [h2]
    unfold Ghost.set
    dsimp only
    rw [if_neg this]
    exact h.looks m hm1
  · intro n hn hne
    rw [h2]
    unfold Ghost.set at hne ⊢
    dsimp only at hne ⊢
    by_cases hj : n.key = k
    · rw [if_pos hj] at hne; exact absurd rfl hne
    · rw [if_neg hj] at hne ⊢
      exact h.notes n (h4 n hn) hne
  · intro j hj
    unfold Ghost.set at hj ⊢
    dsimp only at hj ⊢
    by_cases hjk : j = k
    · rw [if_pos hjk] at hj; exact absurd rfl hj
    · rw [if_neg hjk] at hj ⊢
      rw [h1, h4' j hjk]
      exact h.chain j hj
  · intro j
    unfold Ghost.set
    dsimp only
    by_cases hjk : j = k
    · rw [if_pos hjk, hjk]
      exact ⟨fun _ => h8, fun hh => absurd rfl hh⟩
    · rw [if_neg hjk, h9 j hjk, h4' j hjk]
      exact h.news j

theorem log_none {w : World} {g : Ghost} (h : Inv w g) {k : Key} : w.monitoring k = none ↔ g.log k = [] := by
  refine ⟨(h.mon k).1, fun hl => ?_⟩
  cases hm : w.monitoring k with
  | none => rfl
  | some e => exact absurd hl ((h.mon k).2 e hm).1

/-- What `ctl` does: it fails without a trace, or it does what the specification says. -/
theorem ctl_inv {w : World} {g : Ghost} (h : Inv w g) (hq : w.queue = []) (op : Op) (k : Key) (ev : Events) (d : Nat) :
    ∃ w' err, w.ctl op k ev d = (w', err) ∧ (err.isSome = true → w' = w) ∧
      (err = none → Inv w' (g.ctl (w.legacy k.2) (w.files k.2) op k ev d)) ∧
      err = (match op with
        | .add => if w.files k.2 .closed then some .ebadf else if g.log k = [] then none else some .eexist
        | _ => if g.log k = [] then some .enoent else none) := by
  cases op with
  | add =>
    simp only [World.ctl]
    by_cases hc : w.files k.2 .closed = true
    · rw [if_pos hc, if_pos hc]
      exact ⟨_, _, rfl, fun _ => rfl, (fun hh => by cases hh), rfl⟩
    · rw [if_neg hc, if_neg hc]
      cases hm : w.monitoring k with
      | some e =>
        rw [if_neg ((h.mon k).2 e hm).1]
        exact ⟨_, _, rfl, fun _ => rfl, (fun hh => by cases hh), rfl⟩
      | none =>
        rw [if_pos ((h.mon k).1 hm)]
        refine ⟨_, _, rfl, (fun hh => by cases hh), fun _ => ?_, rfl⟩
        exact armed_inv h hq (agrees_new (by simpa using hc)) rfl (by rw [hm]; rfl)
  | mod =>
    simp only [World.ctl]
    cases hm : w.monitoring k with
    | none =>
      rw [if_pos ((h.mon k).1 hm)]
      exact ⟨_, _, rfl, fun _ => rfl, (fun hh => by cases hh), rfl⟩
    | some e =>
      obtain ⟨h1, h2⟩ := (h.mon k).2 e hm
      rw [if_neg h1]
      refine ⟨_, _, rfl, (fun hh => by cases hh), fun _ => ?_, rfl⟩
      exact armed_inv h hq (agrees_modify h2.leg (rest_state h hq h1).2) rfl (by rw [hm]; rfl)
  | del =>
    simp only [World.ctl]
    cases hm : w.monitoring k with
    | none =>
      rw [if_pos ((h.mon k).1 hm)]
      exact ⟨_, _, rfl, fun _ => rfl, (fun hh => by cases hh), rfl⟩
    | some e =>
      rw [if_neg ((h.mon k).2 e hm).1]
      refine ⟨_, _, rfl, (fun hh => by cases hh), fun _ => ?_, rfl⟩
      have main : ∀ w1 : World, w1.files = w.files → w1.legacy = w.legacy → w1.queue = w.queue →
          w1.monitoring = upd w.monitoring k none → w1.listeners = w.listeners.filter (fun l => l.1 != k) →
          Order w1 (g.fifo.filter (· != k)) → Inv (w1.settle k) ⟨g.set k [], g.fifo.filter (· != k), g.news⟩ := by
        intro w1 a1 a2 a3 a4 a5 a6
        have hn : w1.monitoring k = none := by rw [a4]; exact upd_self _ _ _
        have hs : w1.settle k = w1.refreshState := by
          unfold World.settle World.refreshReady
          rw [hn]
          dsimp only
          unfold World.refreshListener
          rw [hn]
        rw [hs]
        refine dropped_inv (w' := w1.refreshState) h a1 a2 a5 ?_ ?_ a4 a6.refreshState ?_ (rest_news h hq k) (fun _ _ => rfl)
        · intro n hn; rw [← a3]; exact hn
        · intro j _; show w1.queue.filter _ = _; rw [a3]
        · show (!w1.ready.isEmpty) = _; rw [a6.flag]
      cases hp : e.pri with
      | some p =>
        exact main _ rfl rfl rfl rfl rfl (h.order.remove hm hp (v := none) (fun _ hh => by cases hh) rfl rfl rfl)
      | none =>
        refine main _ rfl rfl rfl rfl rfl ?_
        have hk : k ∉ g.fifo := by
          intro hk
          obtain ⟨e', p, h1, h2⟩ := (h.order.mem k).1 hk
          rw [hm] at h1
          cases h1
          rw [hp] at h2
          cases h2
        rw [filter_absent hk]
        exact h.order.upd (v := none) rfl rfl rfl (by rw [hm]; exact hp.symm)

theorem filter_one {ls : List (Key × Flags × Bool)} (hn : (ls.map Prod.fst).Nodup) {m : Key × Flags × Bool} (hm : m ∈ ls) :
    ls.filter (fun l => l.1 == m.1) = [m] := by
  induction ls with
  | nil => cases hm
  | cons c ls ih =>
    rw [List.map_cons, List.nodup_cons] at hn
    rcases List.mem_cons.1 hm with rfl | hm'
    · rw [List.filter_cons_of_pos (by simp)]
      congr 1
      rw [List.filter_eq_nil_iff]
      intro a ha
      have : a.1 ≠ m.1 := fun e => hn.1 (e ▸ List.mem_map_of_mem ha)
      simpa using this
    · have : c.1 ≠ m.1 := fun e => hn.1 (e ▸ List.mem_map_of_mem hm')
      rw [List.filter_cons_of_neg (by simpa using this)]
      exact ih hn.2 hm'

theorem notes_one {ls : List (Key × Flags × Bool)} (hn : (ls.map Prod.fst).Nodup) {m : Key × Flags × Bool} (hm : m ∈ ls) {new ch : Flags} {grew : Bool} :
    ((ls.filter (fun l => l.1.2 == m.1.2)).map (fun l => (⟨l.1, l.2.1, l.2.2, new, ch, grew⟩ : Note))).filter (fun n => n.key == m.1) =
      [⟨m.1, m.2.1, m.2.2, new, ch, grew⟩] := by
  rw [List.filter_map, List.filter_filter]
  have : ls.filter (fun a => ((fun n : Note => n.key == m.1) ∘ fun l => ⟨l.1, l.2.1, l.2.2, new, ch, grew⟩) a && a.1.2 == m.1.2) = [m] := by
    rw [← filter_one hn hm]
    apply List.filter_congr
    intro a _
    rw [Bool.eq_iff_iff]
    simp only [Function.comp, Bool.and_eq_true, beq_iff_eq]
    exact ⟨fun hh => hh.1, fun hh => ⟨hh, by rw [hh]⟩⟩
  rw [this]
  rfl

theorem notes_other {ls : List (Key × Flags × Bool)} {k : Key} {file : Nat} (hf : k.2 ≠ file) {new ch : Flags} {grew : Bool} :
    ((ls.filter (fun l => l.1.2 == file)).map (fun l => (⟨l.1, l.2.1, l.2.2, new, ch, grew⟩ : Note))).filter (fun n => n.key == k) = [] := by
  rw [List.filter_map, List.filter_filter]
  have : ls.filter (fun a => ((fun n : Note => n.key == k) ∘ fun l => ⟨l.1, l.2.1, l.2.2, new, ch, grew⟩) a && a.1.2 == file) = [] := by
    rw [List.filter_eq_nil_iff]
    intro a _
    simp only [Function.comp, Bool.and_eq_true, beq_iff_eq]
    rintro ⟨e1, e2⟩
    rw [e1] at e2
    exact hf e2
  rw [this]
  rfl

theorem change_inv {w : World} {g : Ghost} (h : Inv w g) (file : Nat) (new : Flags) (grew : Bool) : Inv (w.change file new grew) (g.change (w.files file) file new grew) := by
  unfold World.change Ghost.change
  dsimp only
  split
  · rename_i hyes
    refine ⟨h.mon, ⟨h.order.nodup, h.order.list, h.order.pri⟩, h.isr, h.flag, h.lkeys, h.lmem, h.looks, ?_, ?_, ?_⟩
    · intro n hn hne
      rcases List.mem_append.1 hn with hn | hn
      · exact h.notes n hn hne
      · obtain ⟨m, hm, rfl⟩ := List.mem_map.1 hn
        exact h.looks m (List.mem_filter.1 hm).1
    · intro k hk
      rw [List.filter_append]
      have hc := h.chain k hk
      by_cases hf : k.2 = file
      · subst hf
        obtain ⟨m, hm, hmk⟩ := List.mem_map.1 ((h.lmem k).2 hk)
        subst hmk
        rw [notes_one h.lkeys hm]
        show Chain _ _ (if m.1.2 = m.1.2 then new else _)
        rw [if_pos rfl]
        exact chain_append hc (n := ⟨m.1, m.2.1, m.2.2, new, (fun f => new f != w.files m.1.2 f), grew⟩) (fun _ => rfl)
      · rw [notes_other hf]
        show Chain _ (_ ++ []) (if k.2 = file then new else _)
        rw [if_neg hf, List.append_nil]
        exact hc
    · intro k
      dsimp only
      have hd : (differs new (w.files file) || grew) = true := hyes
      rw [hd, Bool.and_true]
      refine ⟨fun hk => ?_, fun hk => ?_⟩
      · rw [hk]; exact (h.news k).1 hk
      · have hemp : (g.log k).isEmpty = false := by
          cases hh : g.log k with
          | nil => exact absurd hh hk
          | cons _ _ => rfl
        rw [(h.news k).2 hk, hemp, Bool.not_false, Bool.true_and, List.filter_append, List.map_append]
        by_cases hf : k.2 = file
        · obtain ⟨m, hm, hmk⟩ := List.mem_map.1 ((h.lmem k).2 hk)
          subst hmk
          subst hf
          rw [notes_one h.lkeys hm]
          simp
        · rw [notes_other hf]
          simp [hf]
  · rename_i hno
    have same : (fun i => if i = file then new else w.files i) = w.files := by
      funext i
      by_cases hi : i = file
      · rw [if_pos hi, hi]
        funext f
        simp only [Bool.or_eq_true, not_or] at hno
        obtain ⟨⟨⟨⟨⟨p1, p2⟩, p3⟩, p4⟩, p5⟩, _⟩ := hno
        cases f
        · simpa using p1
        · simpa using p2
        · simpa using p3
        · simpa using p4
        · simpa using p5
      · rw [if_neg hi]
    have hd : (differs new (w.files file) || grew) = false := Bool.eq_false_iff.2 hno
    rw [same, hd]
    simp only [Bool.and_false]
    exact h

theorem told_inv {w w' : World} {g : Ghost} (h : Inv w g) {n : Note} {rest : List Note} (hq : w.queue = n :: rest) (hne : g.log n.key ≠ [])
    {e : Entry} (ha : Agrees (w.legacy n.key.2) e (.told n.state n.grew :: g.log n.key)) (h1 : w'.files = w.files) (h2 : w'.legacy = w.legacy)
    (h3 : w'.listeners = w.listeners) (h4 : w'.queue = rest) (h5 : w'.monitoring = upd w.monitoring n.key (some e))
    (h6 : Order w' (place (isReady (w.legacy n.key.2) (.told n.state n.grew :: g.log n.key)) n.key g.fifo))
    (h7 : w'.readable = !(place (isReady (w.legacy n.key.2) (.told n.state n.grew :: g.log n.key)) n.key g.fifo).isEmpty) :
    Inv w' ⟨g.set n.key (.told n.state n.grew :: g.log n.key), place (isReady (w.legacy n.key.2) (.told n.state n.grew :: g.log n.key)) n.key g.fifo,
      fun j => if j = n.key then (rest.filter (fun m => m.key == n.key)).map (fun m => (m.state, m.grew)) else g.news j⟩ := by
  refine ⟨mon_set h.mon h2 h5 ha (by simp), h6, fun j => by rw [h2]; exact isr_set h.isr _ _ j, h7, by rw [h3]; exact h.lkeys, ?_, ?_, ?_, ?_, ?_⟩
  · intro j
    rw [h3, h.lmem j]
    unfold Ghost.set
    dsimp only
    by_cases hj : j = n.key
    · rw [if_pos hj, hj]; simp [hne]
    · rw [if_neg hj]
  · intro m hm
    rw [h3] at hm
    rw [h2]
    unfold Ghost.set
    dsimp only
    by_cases hj : m.1 = n.key
    · rw [if_pos hj, ← hj]; exact looks_told (h.looks m hm)
    · rw [if_neg hj]; exact h.looks m hm
  · intro m hm hm2
    rw [h4] at hm
    rw [h2]
    have hm' : m ∈ w.queue := by rw [hq]; exact List.mem_cons_of_mem _ hm
    unfold Ghost.set at hm2 ⊢
    dsimp only at hm2 ⊢
    by_cases hj : m.key = n.key
    · rw [if_pos hj, ← hj]
      exact looks_told (h.notes m hm' (by rw [hj]; exact hne))
    · rw [if_neg hj] at hm2 ⊢
      exact h.notes m hm' hm2
  · intro j hj
    rw [h1, h4]
    unfold Ghost.set at hj ⊢
    dsimp only at hj ⊢
    by_cases hjk : j = n.key
    · rw [if_pos hjk, hjk]
      have := h.chain n.key hne
      rw [hq, List.filter_cons_of_pos (by simp)] at this
      exact this.2
    · rw [if_neg hjk] at hj ⊢
      have := h.chain j hj
      rw [hq, List.filter_cons_of_neg (by simpa using fun e => hjk e.symm)] at this
      exact this
  · intro j
    rw [h4]
    unfold Ghost.set
    dsimp only
    by_cases hjk : j = n.key
    · rw [if_pos hjk, if_pos hjk, hjk]
      exact ⟨fun hh => (by cases hh), fun _ => rfl⟩
    · rw [if_neg hjk, if_neg hjk]
      refine ⟨(h.news j).1, fun hj => ?_⟩
      rw [(h.news j).2 hj, hq, List.filter_cons_of_neg (by simpa using fun e => hjk e.symm)]

theorem place_same {r : Bool} {k : Key} {fifo : List Key} (h : k ∈ fifo ↔ r = true) : place r k fifo = fifo := by
  unfold place
  cases r with
  | true => rw [if_pos rfl, if_pos (h.2 rfl)]
  | false => rw [if_neg (by decide), filter_absent (fun hk => by cases h.1 hk)]

theorem deliver_inv {w : World} {g : Ghost} (h : Inv w g) {n : Note} {rest : List Note} (hq : w.queue = n :: rest) :
    ∃ w', w.deliver = .ok w' ∧ Inv w' (g.tell (w.legacy n.key.2) n.key) := by
  unfold World.deliver
  rw [hq]
  dsimp only
  cases hm : w.monitoring n.key with
  | none =>
    have hl := (h.mon _).1 hm
    have hk : Inv { w with queue := rest } g := by
      refine ⟨h.mon, ⟨h.order.nodup, h.order.list, h.order.pri⟩, h.isr, h.flag, h.lkeys, h.lmem, h.looks, ?_, ?_, ?_⟩
      · intro m hm hne; exact h.notes m (by rw [hq]; exact List.mem_cons_of_mem _ hm) hne
      · intro j hj
        have := h.chain j hj
        rw [hq, List.filter_cons_of_neg (by
          have : n.key ≠ j := by rintro rfl; exact hj hl
          simpa using this)] at this
        exact this
      · intro j
        refine ⟨(h.news j).1, fun hj => ?_⟩
        rw [(h.news j).2 hj, hq, List.filter_cons_of_neg (by
          have : n.key ≠ j := by rintro rfl; exact hj hl
          simpa using this)]
    have hg : g.tell (w.legacy n.key.2) n.key = g := by
      unfold Ghost.tell; rw [(h.news n.key).1 hl]
    rw [hg]
    by_cases hp : n.passes = true
    · rw [if_pos hp]
      unfold World.notifyEntry
      dsimp only
      rw [hm]
      exact ⟨_, rfl, hk⟩
    · rw [if_neg hp]
      exact ⟨_, rfl, hk⟩
  | some e =>
    obtain ⟨hne, ha⟩ := (h.mon _).2 e hm
    have hlk := h.notes n (by rw [hq]; exact List.mem_cons_self) hne
    have hch : ∀ f, n.changed f = (n.state f != lastState (g.log n.key) f) := by
      have := h.chain n.key hne
      rw [hq, List.filter_cons_of_pos (by simp)] at this
      exact this.1
    have hnews : g.news n.key = (n.state, n.grew) :: (rest.filter (fun m => m.key == n.key)).map (fun m => (m.state, m.grew)) := by
      rw [(h.news _).2 hne, hq, List.filter_cons_of_pos (by simp)]
      rfl
    by_cases hp : n.passes = true
    · rw [if_pos hp]
      unfold World.notifyEntry
      dsimp only
      rw [hm]
      dsimp only
      obtain ⟨e', n1, n2, n3, n4⟩ := notify_ok ha (grew := n.grew) (mg := n.monGrew) hlk.grew hch
      rw [n1, R.bind_ok]
      refine ⟨_, rfl, ?_⟩
      generalize hW2 : ({ w with queue := rest, monitoring := upd w.monitoring n.key (some e') } : World) = w2
      have ho : Order w2 g.fifo := by
        rw [← hW2]
        exact h.order.upd (v := some e') rfl rfl rfl (by rw [hm]; exact n2)
      have he : w2.monitoring n.key = some e' := by rw [← hW2]; exact upd_self _ _ _
      obtain ⟨p, r1, r2⟩ := refreshReady_spec ho he
      have b1 : w2.files = w.files := by rw [← hW2]
      have b2 : w2.legacy = w.legacy := by rw [← hW2]
      have b3 : w2.listeners = w.listeners := by rw [← hW2]
      have b4 : w2.queue = rest := by rw [← hW2]
      have b5 : (w2.refreshReady n.key).monitoring = upd w.monitoring n.key (some { e' with pri := p }) := by
        rw [r1, ← hW2]; exact upd_upd _ _ _ _
      have f1 : (w2.refreshReady n.key).files = w.files := by rw [r1]; exact b1
      have f2 : (w2.refreshReady n.key).legacy = w.legacy := by rw [r1]; exact b2
      have f3 : (w2.refreshReady n.key).listeners = w.listeners := by rw [r1]; exact b3
      have f4 : (w2.refreshReady n.key).queue = rest := by rw [r1]; exact b4
      unfold Ghost.tell
      rw [hnews]
      dsimp only
      cases hc : n.state .closed with
      | true =>
        rw [if_pos rfl, if_pos rfl]
        rw [hasReady_closed (by rw [n3]; exact hc)] at r2
        have r2 : Order (w2.refreshReady n.key) (g.fifo.filter (· != n.key)) := r2
        have ho2 : Order ((w2.refreshReady n.key).dropEntry n.key) (g.fifo.filter (· != n.key)) := by
          refine r2.upd (v := none) rfl rfl rfl ?_
          have hnk : n.key ∉ g.fifo.filter (· != n.key) := by simp
          rw [b5, upd_self]
          cases hp' : p with
          | none => rfl
          | some q =>
            exfalso
            apply hnk
            rw [r2.mem]
            exact ⟨{ e' with pri := p }, q, by rw [b5, upd_self], hp'⟩
        refine dropped_inv (w' := ((w2.refreshReady n.key).dropEntry n.key).refreshState) h f1 f2 ?_ ?_ ?_ ?_ ho2.refreshState ?_ (if_pos rfl) (fun j hj => if_neg hj)
        · show (w2.refreshReady n.key).listeners.filter _ = _
          rw [f3]
        · intro m hm'
          have : m ∈ rest := by rw [← f4]; exact hm'
          rw [hq]; exact List.mem_cons_of_mem _ this
        · intro j hj
          show (w2.refreshReady n.key).queue.filter _ = _
          rw [f4, hq, List.filter_cons_of_neg (by simpa using fun e => hj e.symm)]
        · show upd (w2.refreshReady n.key).monitoring n.key none = _
          rw [b5, upd_upd]
        · show (!((w2.refreshReady n.key).dropEntry n.key).ready.isEmpty) = _
          rw [ho2.flag]
      | false =>
        rw [if_neg (by decide), if_neg (by decide)]
        have ha' := n4 hc
        rw [hasReady_eq ha'] at r2
        refine told_inv h hq hne (agrees_pri ha' p) f1 f2 f3 f4 b5 r2.refreshState ?_
        show (!(w2.refreshReady n.key).ready.isEmpty) = _
        rw [r2.flag]
    · rw [if_neg hp]
      obtain ⟨hc, ha'⟩ := agrees_skip ha hlk hch (by simpa using hp)
      refine ⟨_, rfl, ?_⟩
      have hr : place (isReady (w.legacy n.key.2) (.told n.state n.grew :: g.log n.key)) n.key g.fifo = g.fifo := by
        apply place_same
        rw [h.isr, ← hasReady_eq ha, ← hasReady_eq ha']
      unfold Ghost.tell
      rw [hnews]
      dsimp only
      rw [if_neg (by rw [hc]; decide)]
      refine told_inv h hq hne ha' rfl rfl rfl rfl ?_ ?_ ?_
      · show w.monitoring = _
        funext j
        unfold upd
        by_cases hj : j = n.key
        · rw [if_pos hj, hj, hm]
        · rw [if_neg hj]
      · rw [hr]; exact ⟨h.order.nodup, h.order.list, h.order.pri⟩
      · rw [hr]; exact h.flag

theorem wants_after {c : Cond} {l : Log} (h : wants c (after l) = true) : wants c l = true := by
  unfold after at h
  rw [show wants c (.reported (fun c => reports c l) :: l) = (wants c l && !(oneshot l && reports c l)) from rfl] at h
  simp only [Bool.and_eq_true] at h
  exact h.1

theorem looks_after {legacy mon mg l} (h : Looks legacy mon mg l) : Looks legacy mon mg (after l) :=
  ⟨fun c hc => h.conds c (wants_after hc), h.closed, h.all, h.grew⟩

theorem wait_inv {w : World} {g : Ghost} (h : Inv w g) (hq : w.queue = []) (max : Nat) :
    ∃ w', w.collect max = .ok (w', (g.fifo.take max).map (fun k => report (g.log k))) ∧ Inv w' (g.wait w.legacy max) := by
  have hl : Loop w [] g.fifo g.log := by
    obtain ⟨L, l1, l2, l3, l4⟩ := h.order.list
    refine ⟨by simpa using h.order.nodup, ⟨L, l1, l2, by simpa using l3, by simpa using l4⟩, ?_, h.mon, fun k hk => (h.isr k).1 hk⟩
    intro k p
    rw [List.append_nil]
    exact h.order.pri k p
  obtain ⟨w', more, c1, c2, c3, c4⟩ := collectLoop_spec max w [] [] g.fifo g.log hl
  rw [List.nil_append] at c1 c4
  rw [List.nil_append] at c1
  unfold World.collect
  rw [c1, R.bind_ok]
  refine ⟨_, rfl, ?_⟩
  have hwl : g.waitLog max = fun k => if k ∈ g.fifo.take max then after (g.log k) else g.log k := rfl
  have hfifo : g.fifo.drop max ++ (g.fifo.take max).filter (fun k => isReady (w.legacy k.2) (g.waitLog max k)) = g.fifo.drop max ++ more.map Prod.snd := by
    rw [c3]
    congr 1
    apply List.filter_congr
    intro a ha
    rw [hwl]
    dsimp only
    rw [if_pos ha]
  have ho : Order (World.refreshState { w' with ready := w'.ready ++ more }) (g.fifo.drop max ++ more.map Prod.snd) := by
    obtain ⟨L, l1, l2, l3, l4⟩ := c4.list
    exact ⟨c4.nodup, ⟨L ++ more, l1.append_right _, by rw [List.map_append, l2], l3, l4⟩, c4.pri⟩
  have hempty : ∀ k, g.waitLog max k ≠ [] ↔ g.log k ≠ [] := by
    intro k
    rw [hwl]
    dsimp only
    by_cases hk : k ∈ g.fifo.take max
    · rw [if_pos hk]
      constructor
      · intro _ hh
        have := (h.isr k).1 (List.mem_of_mem_take hk)
        rw [hh, isReady_nil] at this
        cases this
      · intro _; simp [after]
    · rw [if_neg hk]
  show Inv _ ⟨g.waitLog max, g.fifo.drop max ++ (g.fifo.take max).filter (fun k => isReady (w.legacy k.2) (g.waitLog max k)), g.news⟩
  rw [hfifo]
  refine ⟨?_, ho, ?_, ?_, by show (w'.listeners.map _).Nodup; rw [c2.listeners]; exact h.lkeys, ?_, ?_, ?_, ?_, ?_⟩
  · exact c4.mon
  · intro k
    show k ∈ g.fifo.drop max ++ more.map Prod.snd ↔ isReady (w'.legacy k.2) (g.waitLog max k) = true
    rw [c2.legacy, ← hfifo, List.mem_append, List.mem_filter]
    constructor
    · rintro (hk | hk)
      · have hnt : k ∉ g.fifo.take max := by
          intro ht
          have hnd := h.order.nodup
          rw [← List.take_append_drop max g.fifo, List.nodup_append] at hnd
          exact hnd.2.2 k ht k hk rfl
        rw [hwl]
        dsimp only
        rw [if_neg hnt]
        exact (h.isr k).1 (List.mem_of_mem_drop hk)
      · exact hk.2
    · intro hk
      by_cases ht : k ∈ g.fifo.take max
      · exact .inr ⟨ht, hk⟩
      · left
        rw [hwl] at hk
        dsimp only at hk
        rw [if_neg ht] at hk
        have := (h.isr k).2 hk
        rw [← List.take_append_drop max g.fifo, List.mem_append] at this
        exact this.resolve_left ht
  · show (!(World.refreshState { w' with ready := w'.ready ++ more }).ready.isEmpty) = _
    rw [ho.flag]
  · intro k
    show k ∈ w'.listeners.map Prod.fst ↔ g.waitLog max k ≠ []
    rw [c2.listeners, hempty]
    exact h.lmem k
  · intro m hm
    have hm : m ∈ w'.listeners := hm
    rw [c2.listeners] at hm
    show Looks (w'.legacy m.1.2) _ _ (g.waitLog max m.1)
    rw [c2.legacy, hwl]
    dsimp only
    by_cases hk : m.1 ∈ g.fifo.take max
    · rw [if_pos hk]; exact looks_after (h.looks m hm)
    · rw [if_neg hk]; exact h.looks m hm
  · intro n hn
    have hn : n ∈ w'.queue := hn
    rw [c2.queue, hq] at hn
    cases hn
  · intro k hk
    show Chain (lastState (g.waitLog max k)) (w'.queue.filter _) (w'.files k.2)
    rw [c2.queue, c2.files, hq]
    have hk' : g.log k ≠ [] := (hempty k).1 hk
    have := h.chain k hk'
    rw [hq] at this
    have e : lastState (g.waitLog max k) = lastState (g.log k) := by
      rw [hwl]
      dsimp only
      by_cases ht : k ∈ g.fifo.take max
      · rw [if_pos ht]; rfl
      · rw [if_neg ht]
    rw [e]
    exact this
  · intro k
    refine ⟨fun _ => rest_news h hq k, fun _ => ?_⟩
    show g.news k = (w'.queue.filter _).map _
    rw [c2.queue, hq, rest_news h hq]
    rfl

theorem step_inv {w g lab w' g'} (h : Inv w g) (hs : Step w g lab w' g') : Inv w' g' := by
  cases hs with
  | @ctl op k ev d _ err hq hc =>
    obtain ⟨w2, err2, h1, h2, h3, _⟩ := ctl_inv h hq op k ev d
    rw [hc] at h1
    obtain ⟨rfl, rfl⟩ := Prod.mk.inj h1
    cases err with
    | none => exact h3 rfl
    | some x => show Inv w' g; rw [h2 rfl]; exact h
  | change => exact change_inv h _ _ _
  | deliver hq hd =>
    obtain ⟨w2, h1, h2⟩ := deliver_inv h hq
    rw [hd] at h1
    cases h1
    exact h2
  | wait hq hc =>
    obtain ⟨w2, h1, h2⟩ := wait_inv h hq _
    rw [hc] at h1
    obtain ⟨rfl, rfl⟩ := Prod.mk.inj (R.ok.inj h1)
    exact h2

theorem run_inv {w g} (h : Run w g) : Inv w g := by
  induction h with
  | new => exact new_inv _ _
  | step _ hs ih => exact step_inv ih hs

/-! ## C25 -/

/-- A condition is to be reported: it is of interest, it holds at the file, and, if edge-triggered, it is new. -/
def Due (w : World) (l : Log) (k : Key) (c : Cond) : Prop :=
  wants c l = true ∧ w.files k.2 (flagOf c) = true ∧ (et l = true → fresh c l = true)

/-- A registration has something to report. The old TCP sockets must be active too. -/
def Ready (w : World) (l : Log) (k : Key) : Prop := (w.legacy k.2 = true → w.files k.2 .active = true) ∧ ∃ c, Due w l k c

theorem registered_of_wants {c : Cond} {l : Log} (h : wants c l = true) : l ≠ [] := by rintro rfl; cases h

theorem reports_iff {w : World} {g : Ghost} (h : Inv w g) (hq : w.queue = []) (k : Key) (c : Cond) :
    reports c (g.log k) = true ↔ Due w (g.log k) k c := by
  unfold reports Due
  simp only [Bool.and_eq_true]
  constructor
  · rintro ⟨⟨h1, h2⟩, h3⟩
    rw [(rest_state h hq (registered_of_wants h1)).1] at h2
    refine ⟨h1, h2, fun he => ?_⟩
    rw [he] at h3
    simpa using h3
  · rintro ⟨h1, h2, h3⟩
    rw [← (rest_state h hq (registered_of_wants h1)).1] at h2
    refine ⟨⟨h1, h2⟩, ?_⟩
    cases he : et (g.log k) with
    | false => rfl
    | true => rw [h3 he]; rfl

theorem ready_iff {w : World} {g : Ghost} (h : Inv w g) (hq : w.queue = []) (k : Key) : k ∈ g.fifo ↔ Ready w (g.log k) k := by
  rw [h.isr]
  unfold isReady Ready
  by_cases hk : g.log k = []
  · rw [hk]
    constructor
    · intro hh; simp [reports, wants] at hh
    · rintro ⟨_, c, hc, _⟩; cases hc
  · obtain ⟨hs, hc⟩ := rest_state h hq hk
    rw [hs, hc]
    simp only [Bool.and_eq_true, Bool.or_eq_true, Bool.not_false, true_and, reports_iff h hq]
    constructor
    · rintro ⟨h1, h2⟩
      refine ⟨fun hl => by rw [hl] at h1; simpa using h1, ?_⟩
      rcases h2 with (h2 | h2) | h2
      · exact ⟨_, h2⟩
      · exact ⟨_, h2⟩
      · exact ⟨_, h2⟩
    · rintro ⟨h1, c, h2⟩
      refine ⟨?_, ?_⟩
      · cases hl : w.legacy k.2 with
        | false => exact .inl rfl
        | true => exact .inr (h1 hl)
      · cases c
        · exact .inl (.inl h2)
        · exact .inl (.inr h2)
        · exact .inr h2

/-- C25, `epoll_wait` with room for `max` results returns one for each of the first `max` registrations of the queue. The
    queue has exactly those registrations that have something to report, each once. A result has exactly the conditions to be
    reported, and the registered data. It does not panic. -/
theorem C25_wait {w g} (h : Run w g) (hq : w.queue = []) (max : Nat) :
    ∃ w', w.collect max = .ok (w', (g.fifo.take max).map (fun k => report (g.log k))) ∧
      ((g.fifo.take max).map (fun k => report (g.log k))).length = min max g.fifo.length ∧ g.fifo.Nodup ∧
      (∀ k, k ∈ g.fifo ↔ Ready w (g.log k) k) ∧
      (∀ k c, (report (g.log k)).1.on c = true ↔ Due w (g.log k) k c) ∧ ∀ k, (report (g.log k)).2 = data (g.log k) := by
  have hi := run_inv h
  obtain ⟨w', h1, _⟩ := wait_inv hi hq max
  exact ⟨w', h1, by simp, hi.order.nodup, ready_iff hi hq, fun k c => reports_iff hi hq k c, fun _ => rfl⟩

/-- C25, the epoll file is readable exactly if there is something in the queue, also while callbacks are pending. -/
theorem C25_readable {w g} (h : Run w g) : w.readable = true ↔ ∃ k, k ∈ g.fifo := by
  rw [(run_inv h).flag]
  cases g.fifo with
  | nil => simp
  | cons a l => simp only [List.isEmpty_cons, Bool.not_false, true_iff]; exact ⟨a, List.mem_cons_self⟩

/-- C25, level-triggered: an entry is ready exactly while one of the conditions of interest holds. -/
theorem C25_level {w g} (h : Run w g) (hq : w.queue = []) {k : Key} (he : et (g.log k) = false) :
    k ∈ g.fifo ↔ (w.legacy k.2 = true → w.files k.2 .active = true) ∧ ∃ c, wants c (g.log k) = true ∧ w.files k.2 (flagOf c) = true := by
  rw [ready_iff (run_inv h) hq]
  unfold Ready Due
  rw [he]
  simp

/-- C25, level-triggered without one-shot: being reported changes nothing, it is reported again by a later wait. -/
theorem C25_level_again {w g} (h : Run w g) (hq : w.queue = []) {k : Key} (he : et (g.log k) = false) (ho : oneshot (g.log k) = false)
    (hk : k ∈ g.fifo) (max : Nat) : k ∈ (g.wait w.legacy max).fifo ∧ ∀ c, wants c ((g.wait w.legacy max).log k) = wants c (g.log k) := by
  have hi := run_inv h
  obtain ⟨w', h1, h2⟩ := wait_inv hi hq max
  have hw : ∀ c, wants c ((g.wait w.legacy max).log k) = wants c (g.log k) := by
    intro c
    show wants c (g.waitLog max k) = _
    unfold Ghost.waitLog
    split
    · rw [show ∀ on, wants c (.reported on :: g.log k) = (wants c (g.log k) && !(oneshot (g.log k) && on c)) from fun _ => rfl, ho]
      simp
    · rfl
  refine ⟨?_, hw⟩
  unfold Ghost.wait
  dsimp only
  rw [List.mem_append, List.mem_filter]
  by_cases ht : k ∈ g.fifo.take max
  · refine .inr ⟨ht, ?_⟩
    have hr := (hi.isr k).1 hk
    have e : ∀ c, reports c (g.waitLog max k) = reports c (g.log k) := by
      intro c
      have hw := hw c
      unfold reports
      rw [show wants c (g.waitLog max k) = wants c (g.log k) from hw, he]
      unfold Ghost.waitLog
      rw [if_pos ht]
      rw [show ∀ on, et (.reported on :: g.log k) = et (g.log k) from fun _ => rfl, he]
      rfl
    unfold isReady at hr ⊢
    rw [e, e, e]
    have hs : lastState (g.waitLog max k) = lastState (g.log k) := by unfold Ghost.waitLog; rw [if_pos ht]; rfl
    rw [hs]
    exact hr
  · left
    rw [← List.take_append_drop max g.fifo, List.mem_append] at hk
    exact hk.resolve_left ht

/-- The records after which a registration is as it was armed before. -/
def noArm : Log → Prop
  | [] => True
  | .armed _ _ _ :: _ => False
  | _ :: l => noArm l

theorem wants_mono {c : Cond} {rs l : Log} (hn : noArm rs) (h : wants c l = false) : wants c (rs ++ l) = false := by
  induction rs with
  | nil => exact h
  | cons r rs ih =>
    cases r with
    | armed => exact hn.elim
    | told s gr => exact ih hn
    | reported on =>
      show (wants c (rs ++ l) && _) = false
      rw [ih hn]
      rfl

theorem et_append {rs l : Log} (hn : noArm rs) : et (rs ++ l) = et l := by
  induction rs with
  | nil => rfl
  | cons r rs ih =>
    cases r with
    | armed => exact hn.elim
    | told s gr => exact ih hn
    | reported on => exact ih hn

/-- C25, edge-triggered: if a condition that was reported is in the results again, then since the last report its flag was
    changed or, for readability, more could be read. -/
theorem C25_edge {w g w' max out} {i : Nat} {r : Events × Nat} (h : Run w g) (hq : w.queue = []) {k : Key} {c : Cond} {rs l : Log} {on : Cond → Bool}
    (hl : g.log k = rs ++ .reported on :: l) (hn : noArm rs) (he : et l = true) (hon : on c = true)
    (hc : w.collect max = .ok (w', out)) (hk : (g.fifo.take max)[i]? = some k) (hr : out[i]? = some r) (hrc : r.1.on c = true) :
    ∃ r2 s grew r1, rs = r2 ++ .told s grew :: r1 ∧
      (s (flagOf c) ≠ lastState (r1 ++ .reported on :: l) (flagOf c) ∨ (grew = true ∧ c = .inn ∧ s .readable = true)) := by
  have hd : Due w (g.log k) k c := by
    obtain ⟨w2, h1, _⟩ := wait_inv (run_inv h) hq max
    rw [hc] at h1
    rw [(Prod.mk.inj (R.ok.inj h1)).2, List.getElem?_map, hk] at hr
    rw [← Option.some.inj hr] at hrc
    exact (reports_iff (run_inv h) hq k c).1 hrc
  have hf : fresh c (rs ++ .reported on :: l) = true := by
    have := hd.2.2
    rw [hl, et_append hn] at this
    exact this he
  clear hl hd hq h hc hk hr hrc
  induction rs with
  | nil =>
    have : (!on c && fresh c l) = true := hf
    rw [hon] at this
    cases this
  | cons r rs ih =>
    cases r with
    | armed => exact hn.elim
    | reported on2 =>
      have : (!on2 c && fresh c (rs ++ .reported on :: l)) = true := hf
      rw [Bool.and_eq_true] at this
      obtain ⟨r2, s, grew, r1, e, h2⟩ := ih hn this.2
      exact ⟨.reported on2 :: r2, s, grew, r1, by rw [e]; rfl, h2⟩
    | told s grew =>
      have : ((s (flagOf c) != lastState (rs ++ .reported on :: l) (flagOf c)) || (grew && c == .inn && s .readable) || fresh c (rs ++ .reported on :: l)) = true := hf
      simp only [Bool.or_eq_true] at this
      rcases this with (h1 | h1) | h1
      · exact ⟨[], s, grew, rs, rfl, .inl (by simpa using h1)⟩
      · refine ⟨[], s, grew, rs, rfl, .inr ?_⟩
        simp only [Bool.and_eq_true, beq_iff_eq] at h1
        exact ⟨h1.1.1, h1.1.2, h1.2⟩
      · obtain ⟨r2, s', grew', r1, e, h2⟩ := ih hn h1
        exact ⟨.told s grew :: r2, s', grew', r1, by rw [e]; rfl, h2⟩

/-- Changes that were told since a condition was reported last. -/
def unreported (c : Cond) : Log → Prop
  | [] => True
  | .armed _ _ _ :: _ => True
  | .told _ _ :: l => unreported c l
  | .reported on :: l => on c = false ∧ unreported c l

/-- C25, edge-triggered: if the flag of a condition of interest was changed, or more could be read, and the condition holds
    and was not reported since, then it is to be reported. -/
theorem C25_edge_reported {w g} (h : Run w g) (hq : w.queue = []) {k : Key} {c : Cond} {r2 l : Log} {s : Flags} {grew : Bool}
    (hl : g.log k = r2 ++ .told s grew :: l) (hn : noArm r2) (hu : unreported c r2)
    (hc : s (flagOf c) ≠ lastState l (flagOf c) ∨ (grew = true ∧ c = .inn ∧ s .readable = true))
    (hw : wants c (g.log k) = true) (hf : w.files k.2 (flagOf c) = true) (ha : w.legacy k.2 = true → w.files k.2 .active = true) :
    k ∈ g.fifo ∧ (report (g.log k)).1.on c = true := by
  have hfr : fresh c (r2 ++ .told s grew :: l) = true := by
    clear hl
    induction r2 with
    | nil =>
      show ((s (flagOf c) != lastState l (flagOf c)) || (grew && c == .inn && s .readable) || fresh c l) = true
      rcases hc with hc | ⟨h1, h2, h3⟩
      · have : (s (flagOf c) != lastState l (flagOf c)) = true := by simpa using hc
        rw [this]; rfl
      · subst h1 h2; rw [h3]; simp
    | cons r rs ih =>
      cases r with
      | armed => exact hn.elim
      | reported on =>
        show (!on c && fresh c (rs ++ .told s grew :: l)) = true
        rw [hu.1, ih hn hu.2]
        rfl
      | told s2 g2 =>
        show (_ || _ || fresh c (rs ++ .told s grew :: l)) = true
        rw [ih hn hu, Bool.or_true]
  have hd : Due w (g.log k) k c := ⟨hw, hf, fun _ => by rw [hl]; exact hfr⟩
  exact ⟨(ready_iff (run_inv h) hq k).2 ⟨ha, c, hd⟩, (reports_iff (run_inv h) hq k c).2 hd⟩

/-- C25, one-shot: a condition that was reported is not reported again until the registration is armed again. If nothing
    else was asked for, the registration is not reported at all. -/
theorem C25_oneshot {w g} (h : Run w g) (hq : w.queue = []) {k : Key} {rs l : Log} {on : Cond → Bool} (hl : g.log k = rs ++ .reported on :: l)
    (hn : noArm rs) (ho : oneshot l = true) :
    (∀ c, on c = true → (report (g.log k)).1.on c = false) ∧ ((∀ c, wants c l = true → on c = true) → k ∉ g.fifo) := by
  have hi := run_inv h
  have hw : ∀ c, on c = true → wants c (g.log k) = false := by
    intro c hc
    rw [hl]
    apply wants_mono hn
    show (wants c l && !(oneshot l && on c)) = false
    rw [ho, hc]; simp
  refine ⟨fun c hc => ?_, fun hall hk => ?_⟩
  · show reports c (g.log k) = false
    unfold reports
    rw [hw c hc]; rfl
  · obtain ⟨_, c, hc, _⟩ := (ready_iff hi hq k).1 hk
    have : wants c l = true := by
      cases hh : wants c l with
      | true => rfl
      | false =>
        rw [hl, show rs ++ Rec.reported on :: l = (rs ++ [.reported on]) ++ l by simp] at hc
        have hn2 : noArm (rs ++ [.reported on]) := by
          clear hl hc hk hw hall
          induction rs with
          | nil => exact trivial
          | cons r rs ih => cases r with
            | armed => exact hn.elim
            | told => exact ih hn
            | reported => exact ih hn
        rw [wants_mono hn2 hh] at hc
        cases hc
    rw [hw c (hall c this)] at hc
    cases hc

/-- C25, a closed file is not registered any more, and nothing is reported about it. -/
theorem C25_closed {w g} (h : Run w g) (hq : w.queue = []) {k : Key} (hc : w.files k.2 .closed = true) :
    w.monitoring k = none ∧ k ∉ g.fifo := by
  have hi := run_inv h
  have hl : g.log k = [] := by
    cases hh : g.log k with
    | nil => rfl
    | cons r l =>
      rw [(rest_state hi hq (by rw [hh]; simp)).2] at hc
      cases hc
  refine ⟨(log_none hi).2 hl, fun hk => ?_⟩
  rw [hi.isr, hl, isReady_nil] at hk
  cases hk

/-- C25, the errors of `epoll_ctl`; without one it does what the specification says. -/
theorem C25_ctl {w g} (h : Run w g) (hq : w.queue = []) (op : Op) (k : Key) (ev : Events) (d : Nat) :
    (w.ctl op k ev d).2 = (match op with
        | .add => if w.files k.2 .closed then some .ebadf else if g.log k = [] then none else some .eexist
        | _ => if g.log k = [] then some .enoent else none) ∧
    ((w.ctl op k ev d).2 ≠ none → (w.ctl op k ev d).1 = w) := by
  obtain ⟨w', err, h1, h2, h3, h4⟩ := ctl_inv (run_inv h) hq op k ev d
  rw [h1]
  refine ⟨h4, fun hne => h2 ?_⟩
  cases err with
  | none => exact absurd rfl hne
  | some x => rfl

/-- C25, no callback panics. -/
theorem C25_no_panic {w g} (h : Run w g) : ∃ w', w.deliver = .ok w' := by
  cases hq : w.queue with
  | nil => exact ⟨w, by unfold World.deliver; rw [hq]⟩
  | cons n rest =>
    obtain ⟨w', h1, _⟩ := deliver_inv (run_inv h) hq
    exact ⟨w', h1⟩

/-- Steps during which a registration stays in the queue and no wait reports it; with the total of the room of the waits. -/
inductive Waiting (k : Key) : World → Ghost → Nat → World → Ghost → Prop where
  | refl {w g} : k ∈ g.fifo → Waiting k w g 0 w g
  | other {w g n w1 g1 lab w2 g2} : Waiting k w g n w1 g1 → Step w1 g1 lab w2 g2 → (∀ max out, lab ≠ .wait max out) → k ∈ g2.fifo →
      Waiting k w g n w2 g2
  | wait {w g n w1 g1 max out w2 g2} : Waiting k w g n w1 g1 → Step w1 g1 (.wait max out) w2 g2 → k ∉ g1.fifo.take max →
      Waiting k w g (n + max) w2 g2

theorem idxOf_filter_le {k : Key} (p : Key → Bool) : ∀ {l : List Key}, k ∈ l → p k = true → (l.filter p).idxOf k ≤ l.idxOf k := by
  intro l
  induction l with
  | nil => intro h; cases h
  | cons a l ih =>
    intro h hp
    by_cases ha : a = k
    · subst ha
      rw [List.filter_cons_of_pos hp]
      simp
    · have hk : k ∈ l := (List.mem_cons.1 h).resolve_left (fun e => ha e.symm)
      have := ih hk hp
      cases hpa : p a with
      | true =>
        rw [List.filter_cons_of_pos hpa]
        simp only [List.idxOf_cons, beq_iff_eq, ha, Bool.cond_eq_ite]
        simpa [ha] using this
      | false =>
        rw [List.filter_cons_of_neg (by rw [hpa]; decide)]
        simp only [List.idxOf_cons]
        have : (a == k) = false := by simpa using ha
        rw [this]
        dsimp only [cond]
        omega

theorem idxOf_append_mem {k : Key} {a b : List Key} (h : k ∈ a) : (a ++ b).idxOf k = a.idxOf k := by
  rw [List.idxOf_append, if_pos h]

theorem idxOf_place {r : Bool} {j k : Key} {fifo : List Key} (h : k ∈ fifo) (h2 : k ∈ place r j fifo) : (place r j fifo).idxOf k ≤ fifo.idxOf k := by
  unfold place at h2 ⊢
  cases r with
  | true =>
    rw [if_pos rfl]
    by_cases hj : j ∈ fifo
    · rw [if_pos hj]; exact Nat.le_refl _
    · rw [if_neg hj, idxOf_append_mem h]; exact Nat.le_refl _
  | false =>
    rw [if_neg (by decide)] at h2 ⊢
    exact idxOf_filter_le _ h (List.mem_filter.1 h2).2

theorem idxOf_drop {k : Key} : ∀ {l : List Key} {n : Nat}, k ∈ l → k ∉ l.take n → n + (l.drop n).idxOf k = l.idxOf k := by
  intro l n h h2
  have hd : k ∈ l.drop n := by
    rw [← List.take_append_drop n l, List.mem_append] at h
    exact h.resolve_left h2
  have hn : n ≤ l.length := by
    have := List.length_pos_of_mem hd
    rw [List.length_drop] at this
    omega
  conv => rhs; rw [← List.take_append_drop n l, List.idxOf_append, if_neg h2]
  rw [List.length_take]
  omega

theorem mem_take_or_drop {k : Key} {l : List Key} {n : Nat} (h : k ∈ l) : k ∈ l.take n ∨ k ∈ l.drop n := by
  rw [← List.take_append_drop n l, List.mem_append] at h
  exact h

theorem Waiting.mem {k w g n w' g'} (h : Waiting k w g n w' g') : k ∈ g'.fifo := by
  induction h with
  | refl hk => exact hk
  | other _ _ _ hk => exact hk
  | wait _ hs hk ih =>
    cases hs with
    | wait _ _ =>
      unfold Ghost.wait
      dsimp only
      rw [List.mem_append]
      left
      exact (mem_take_or_drop ih).resolve_left hk

/-- C25, no starvation: while a registration stays ready and is passed over, its place in the queue advances by at least
    the room of every wait. So the waits that pass over it have, together, less room than there were entries in the queue
    when it got ready. -/
theorem C25_fair {k w g n w' g'} (h : Waiting k w g n w' g') : n + g'.fifo.idxOf k ≤ g.fifo.idxOf k ∧ n < g.fifo.length := by
  have hk : k ∈ g.fifo := by
    induction h with
    | refl hk => exact hk
    | other _ _ _ _ ih => exact ih
    | wait _ _ _ ih => exact ih
  have main : n + g'.fifo.idxOf k ≤ g.fifo.idxOf k := by
    induction h with
    | refl => omega
    | @other n w1 g1 lab w2 g2 hw hs hl hk2 ih =>
      have hk1 := hw.mem
      have : g2.fifo.idxOf k ≤ g1.fifo.idxOf k := by
        cases hs with
        | @ctl op j ev d _ err hq hc =>
          cases err with
          | some x => exact Nat.le_refl _
          | none =>
            cases op with
            | add => exact idxOf_place hk1 hk2
            | mod => exact idxOf_place hk1 hk2
            | del => exact idxOf_place (r := false) hk1 hk2
        | change => exact Nat.le_refl _
        | @deliver m rest _ hq hd =>
          revert hk2
          unfold Ghost.tell
          cases hn : g1.news m.key with
          | nil => intro _; exact Nat.le_refl _
          | cons a as =>
            dsimp only
            split
            · intro hk2; exact idxOf_place (r := false) hk1 hk2
            · intro hk2; exact idxOf_place hk1 hk2
        | wait => exact absurd rfl (hl _ _)
      omega
    | @wait n w1 g1 max out w2 g2 hw hs hk2 ih =>
      have hk1 := hw.mem
      have hd : k ∈ g1.fifo.drop max := by
        rw [← List.take_append_drop max g1.fifo, List.mem_append] at hk1
        exact hk1.resolve_left hk2
      have := idxOf_drop hk1 hk2
      cases hs with
      | wait hq hc =>
        unfold Ghost.wait
        dsimp only
        rw [idxOf_append_mem hd]
        omega
  refine ⟨main, ?_⟩
  have := List.idxOf_lt_length_of_mem hk
  omega

/-! ## Executions -/

inductive Cmd where
  | ctl (op : Op) (k : Key) (ev : Events) (d : Nat)
  | change (file : Nat) (new : Flags) (grew : Bool)
  | deliver
  | wait (max : Nat)

/-- Runs a list of commands, if they are steps; with the results of the waits. -/
def exec : World → Ghost → List Cmd → Option (World × Ghost × List (List (Events × Nat)))
  | w, g, [] => some (w, g, [])
  | w, g, .ctl op k ev d :: cs =>
    if w.queue.isEmpty then
      let r := w.ctl op k ev d
      exec r.1 (if r.2.isSome then g else g.ctl (w.legacy k.2) (w.files k.2) op k ev d) cs
    else none
  | w, g, .change file new grew :: cs => exec (w.change file new grew) (g.change (w.files file) file new grew) cs
  | w, g, .deliver :: cs =>
    match w.queue with
    | [] => none
    | n :: _ =>
      match w.deliver with
      | .ok w' => exec w' (g.tell (w.legacy n.key.2) n.key) cs
      | .panic => none
  | w, g, .wait max :: cs =>
    if w.queue.isEmpty then
      match w.collect max with
      | .ok (w', out) => (exec w' (g.wait w.legacy max) cs).map (fun r => (r.1, r.2.1, out :: r.2.2))
      | .panic => none
    else none

theorem exec_run : ∀ (cs : List Cmd) {w g w' g' outs}, Run w g → exec w g cs = some (w', g', outs) → Run w' g' := by
  intro cs
  induction cs with
  | nil =>
    intro w g w' g' outs h he
    simp only [exec, Option.some.injEq, Prod.mk.injEq] at he
    obtain ⟨rfl, rfl, rfl⟩ := he
    exact h
  | cons c cs ih =>
    intro w g w' g' outs h he
    cases c with
    | ctl op k ev d =>
      simp only [exec] at he
      by_cases hq : w.queue.isEmpty = true
      · rw [if_pos hq] at he
        exact ih (h.step (.ctl (List.isEmpty_iff.1 hq) rfl)) he
      · rw [if_neg hq] at he; cases he
    | change file new grew => exact ih (h.step .change) he
    | deliver =>
      simp only [exec] at he
      cases hq : w.queue with
      | nil => rw [hq] at he; cases he
      | cons n rest =>
        rw [hq] at he
        dsimp only at he
        cases hd : w.deliver with
        | panic => rw [hd] at he; cases he
        | ok w2 => rw [hd] at he; exact ih (h.step (.deliver hq hd)) he
    | wait max =>
      simp only [exec] at he
      by_cases hq : w.queue.isEmpty = true
      · rw [if_pos hq] at he
        cases hc : w.collect max with
        | panic => rw [hc] at he; cases he
        | ok r =>
          obtain ⟨w2, out⟩ := r
          rw [hc] at he
          dsimp only at he
          cases hx : exec w2 (g.wait w.legacy max) cs with
          | none => rw [hx] at he; cases he
          | some x =>
            obtain ⟨w3, g3, o3⟩ := x
            rw [hx] at he
            simp only [Option.map_some, Option.some.injEq, Prod.mk.injEq] at he
            obtain ⟨rfl, rfl, _⟩ := he
            exact ih (h.step (.wait (List.isEmpty_iff.1 hq) hc)) hx
      · rw [if_neg hq] at he; cases he

def start : World := World.new (fun _ f => f == .active) (fun _ => false)

def startG : Ghost := ⟨fun _ => [], [], fun _ => []⟩

def fl (r wr h c : Bool) : Flags
  | .readable => r
  | .writable => wr
  | .rdhup => h
  | .closed => c
  | .active => true

def ev (i o h et os : Bool) : Events := ⟨fun | .inn => i | .out => o | .rdhup => h, et, os⟩

/-- The results of the waits in a form that can be compared. -/
def shown (r : Option (World × Ghost × List (List (Events × Nat)))) : Option (List (List (List Bool × Nat))) :=
  r.map (fun x => x.2.2.map (fun out => out.map (fun e => ([e.1.on .inn, e.1.on .out, e.1.on .rdhup], e.2))))

-- Level-triggered: two readable files are reported in turn, as long as they are readable.
example : shown (exec start startG [.ctl .add (3, 0) (ev true false false false false) 30, .ctl .add (4, 1) (ev true true false false false) 40,
    .change 0 (fl true false false false) false, .deliver, .change 1 (fl true true false false) false, .deliver, .wait 1, .wait 1, .wait 5,
    .change 0 (fl false false false false) false, .deliver, .wait 5]) =
  some [[([true, false, false], 30)], [([true, true, false], 40)], [([true, false, false], 30), ([true, true, false], 40)],
    [([true, true, false], 40)]] := by decide +kernel

-- Edge-triggered: once per change, and once for more to read.
example : shown (exec start startG [.ctl .add (3, 0) (ev true false false true false) 30,
    .change 0 (fl true false false false) false, .deliver, .wait 5, .wait 5, .change 0 (fl true false false false) true, .deliver, .wait 5, .wait 5]) =
  some [[([true, false, false], 30)], [], [([true, false, false], 30)], []] := by decide +kernel

-- One-shot: silent after the report until armed again. A closed file is forgotten.
example : shown (exec start startG [.ctl .add (3, 0) (ev true false false false true) 30,
    .change 0 (fl true false false false) false, .deliver, .wait 5, .wait 5, .change 0 (fl true true false false) true, .deliver, .wait 5,
    .ctl .mod (3, 0) (ev true false false false true) 31, .wait 5, .change 0 (fl true true false true) false, .deliver, .wait 5]) =
  some [[([true, false, false], 30)], [], [], [([true, false, false], 31)], []] := by decide +kernel

-- The steps of `C25_fair` with a wait that passes over a registration.
example : ∃ w g w' g', Run w g ∧ Waiting (4, 1) w g 1 w' g' := by
  have h := exec_run [.ctl .add (3, 0) (ev true false false false false) 30, .ctl .add (4, 1) (ev true true false false false) 40,
    .change 0 (fl true false false false) false, .deliver, .change 1 (fl true true false false) false, .deliver] (w := start) (g := startG) .new rfl
  obtain ⟨w', h1, _⟩ := wait_inv (run_inv h) rfl 1
  exact ⟨_, _, _, _, h, .wait (.refl (by decide +kernel)) (.wait rfl h1) (by decide +kernel)⟩

/-- Whether a registration was reported since it was armed. -/
def wasReported : Log → Bool
  | [] => false
  | .armed _ _ _ :: _ => false
  | .told _ _ :: l => wasReported l
  | .reported _ :: _ => true

/-- C25 is false for one-shot registrations with more than one condition: after a report, and without being armed again, the
    registration is reported again for another condition. -/
theorem C25_oneshot_again : ∃ w g k w' r, Run w g ∧ w.queue = [] ∧ oneshot (g.log k) = true ∧ wasReported (g.log k) = true ∧
    w.collect 10 = .ok (w', [r]) ∧ r = report (g.log k) ∧ r.1.on .out = true := by
  have h := exec_run [.ctl .add (3, 0) (ev true true false false true) 30, .change 0 (fl true false false false) false, .deliver, .wait 5,
    .change 0 (fl true true false false) false, .deliver] (w := start) (g := startG) .new rfl
  obtain ⟨w', h1, _⟩ := wait_inv (run_inv h) rfl 10
  exact ⟨_, _, (3, 0), w', _, h, rfl, by decide +kernel, by decide +kernel, h1, rfl, by decide +kernel⟩

end Shadow.Epoll
