import Verif.Timer.Model

/-!
# Timers: theorems (C26)
-/
namespace Shadow.Timer

open Shadow.Base
open Shadow.Time

/-! ## Specification -/

/-- How often a timer set to `e` with the interval `i` has expired at time `t`. -/
def due (e : Nat) (i : Option Nat) (t : Nat) : Nat :=
  if t < e then 0
  else match i with
    | none => 1
    | some p => (t - e) / p + 1

/-- When the expiration number `j` (from zero) is due. -/
def dueAt (e : Nat) (i : Option Nat) (j : Nat) : Nat := e + i.getD 0 * j

/-! ## Scheduling -/

/-- The second boundary between one and two seconds after `now`. -/
def early (now : Nat) : Nat := simStart + (now - simStart) / 1000000000 * 1000000000 + 2000000000

theorem early_gt (now : Nat) (h : simStart ≤ now) : now < early now ∧ early now ≤ now + 2000000000 := by
  unfold early
  omega

theorem simStart_eq : simStart = 946684800000000000 := rfl
theorem emuMax_eq : emuMax = 18446744073709551614 := rfl
theorem simMax_eq : simMax = 17500059273709551614 := rfl

theorem sim_fromC {v : Nat} (h : v ≤ simMax) : Sim.fromC v = some v := by
  have := simMax_eq
  unfold Sim.fromC
  rw [if_neg (by unfold simInvalid u64Max; omega), if_neg (by omega), Nat.div_one]

theorem emu_fromC {v : Nat} (h : v ≤ emuMax) : Emu.fromC v = some v := by
  have := emuMax_eq
  unfold Emu.fromC
  rw [if_neg (by unfold emuInvalid u64Max; omega)]

theorem emu_add {a b : Nat} (h : a + b ≤ emuMax) : Emu.checkedAdd a b = some (a + b) := by
  have := emuMax_eq
  unfold Emu.checkedAdd U64.checkedAdd
  rw [if_pos (by unfold u64Max; omega)]
  exact emu_fromC h

theorem early_fits (now s m : Nat) (h1 : s ≤ now) (h2 : now + 2000000000 ≤ m) :
    s + ((now - s) / 1000000000 * 1000000000 + 2000000000) ≤ m := by
  have := Nat.div_mul_le_self (now - s) 1000000000
  generalize 2000000000 = k at *
  generalize (now - s) / 1000000000 * 1000000000 = q at *
  omega

/-- What `schedule` does to a world. -/
def World.scheduled (x : World) (n : Nat) : World :=
  { x with
    timer := { x.timer with nextId := x.timer.nextId + 1 }
    pending := if min n (early x.now) ≥ x.endTime then x.pending else ⟨min n (early x.now), x.timer.nextId⟩ :: x.pending }

theorem sched1 {now : Nat} (h1 : simStart ≤ now) (h2 : now + 2000000000 ≤ emuMax) :
    Emu.durationSince now simStart = some (now - simStart) := by
  unfold Emu.durationSince Emu.checkedDurationSince U64.checkedSub
  rw [if_pos h1]
  have := simMax_eq; have := emuMax_eq; have := simStart_eq
  exact sim_fromC (by omega)

theorem sched2 {a : Nat} (h : a ≤ simMax) : Sim.tryFromSecs (Sim.asSecs a) = some (a / 1000000000 * 1000000000) := by
  unfold Sim.tryFromSecs Sim.checkedMul U64.checkedMul Sim.asSecs oneSecond
  have := simMax_eq
  rw [if_pos (by unfold u64Max; omega), Nat.mul_comm]
  exact sim_fromC (by omega)

theorem sched3 : Sim.checkedMul oneSecond 2 = some 2000000000 := by decide +kernel

theorem sched4 {a b : Nat} (h : a + b ≤ simMax) : Sim.checkedAdd a b = some (a + b) := by
  have := simMax_eq
  unfold Sim.checkedAdd U64.checkedAdd
  rw [if_pos (by unfold u64Max; omega)]
  exact sim_fromC h

theorem sched5 {now : Nat} (h1 : simStart ≤ now) (h2 : now + 2000000000 ≤ emuMax) :
    (now - simStart) / 1000000000 * 1000000000 + 2000000000 ≤ simMax := by
  have := simMax_eq; have := emuMax_eq; have := simStart_eq
  have := Nat.div_mul_le_self (now - simStart) 1000000000
  generalize (now - simStart) / 1000000000 * 1000000000 = q at *
  omega

theorem schedule_eq {x : World} {n : Nat} (hn : x.timer.next = some n) (h1 : simStart ≤ x.now) (h2 : x.now + 2000000000 ≤ emuMax) :
    x.schedule = if min n (early x.now) ≥ x.endTime ∨ x.lastPop ≤ min n (early x.now) then .ok (x.scheduled n) else .panic := by
  have e5 : Emu.checkedAdd simStart ((x.now - simStart) / 1000000000 * 1000000000 + 2000000000) = some (early x.now) := by
    rw [emu_add (early_fits _ _ _ h1 h2), ← Nat.add_assoc, early]
  have hs : x.now - simStart ≤ simMax := by
    have := simMax_eq; have := emuMax_eq; have := simStart_eq
    clear e5
    omega
  unfold World.schedule
  rw [sched1 h1 h2, R.unwrap_some, R.bind_ok, sched2 hs, R.unwrap_some, R.bind_ok, sched3, R.unwrap_some, R.bind_ok, sched4 (sched5 h1 h2),
    R.unwrap_some, R.bind_ok, hn, R.unwrap_some, R.bind_ok, e5, R.unwrap_some, R.bind_ok]
  unfold World.push World.scheduled
  generalize early x.now = a
  dsimp only
  by_cases hd : min n a ≥ x.endTime
  · rw [if_pos hd, if_pos (.inl hd), if_pos hd]
  · rw [if_neg hd, if_neg hd]
    by_cases h3 : x.lastPop ≤ min n a
    · rw [if_pos (.inr h3), show R.assert (decide (min n a ≥ x.lastPop)) = .ok () by rw [decide_eq_true h3]; rfl]
      rfl
    · rw [if_neg (fun hh => hh.elim hd h3), show R.assert (decide (min n a ≥ x.lastPop)) = .panic by rw [decide_eq_false h3]; rfl]
      rfl

/-! ## Histories -/

/-- The setting of a timer: since it was last armed or disarmed, the due time and the interval (if armed), how much
    was consumed, and the times at which the callback was called. -/
structure Ghost where
  set : Option (Nat × Option Nat)
  taken : Nat
  log : List Nat

/-- Histories of a timer. With `late`, the processor can delay its events.
    Hypotheses: the clock never passes the end of the simulation while an event is run; other events of the host
    are popped in order; an armed timer's interval added to the end of the simulation is still a time. -/
inductive Run (late : Bool) : World → Ghost → Prop where
  | new {t endTime : Nat} : simStart ≤ t → t ≤ endTime → endTime + 2000000000 ≤ emuMax →
      Run late ⟨Timer.new, t, t, endTime, []⟩ ⟨none, 0, []⟩
  | arm {x g e i y} : Run late x g → e ≤ emuMax → (∀ p, i = some p → x.endTime + p ≤ emuMax) → x.arm e i = .ok y → Run late y ⟨some (e, i), 0, []⟩
  | disarm {x g} : Run late x g → Run late x.disarm ⟨none, 0, []⟩
  | consume {x g} : Run late x g → Run late x.consume.1 { g with taken := g.taken + x.consume.2 }
  | fire {x g ev y called} : Run late x g → ev ∈ x.pending → (∀ f ∈ x.pending, ev.le f) → x.fire ev = .ok (y, called) →
      Run late y { g with log := if called then g.log ++ [ev.time] else g.log }
  | delay {x g ev d y} : Run late x g → late = true → ev ∈ x.pending → (∀ f ∈ x.pending, ev.le f) → x.delay ev d = .ok y → Run late y g
  | other {x g t} : Run late x g → x.lastPop ≤ t → t < x.endTime → (∀ f ∈ x.pending, t ≤ f.time) → Run late (x.other t) g
  | tick {x g t} : Run late x g → x.now ≤ t → t ≤ x.endTime → Run late (x.tick t) g

/-- The timer's event that counts: it is the only one with a valid identifier; there is none if it would be after
    the end. Without delays, it is not later than the next expiration. -/
def Valid (late : Bool) (x : World) (n : Nat) : Prop :=
  (∃ ev ∈ x.pending, x.timer.minValid ≤ ev.id ∧ (late = false → ev.time ≤ n) ∧ ∀ f ∈ x.pending, f ≠ ev → f.id < x.timer.minValid) ∨
  ((late = true ∨ x.endTime ≤ n) ∧ ∀ f ∈ x.pending, f.id < x.timer.minValid)

structure Inv (late : Bool) (x : World) (g : Ghost) : Prop where
  start : simStart ≤ x.lastPop
  order : x.lastPop ≤ x.now
  fits : x.now ≤ x.endTime
  top : x.endTime + 2000000000 ≤ emuMax
  ids : x.timer.minValid ≤ x.timer.nextId
  fresh : ∀ f ∈ x.pending, f.id < x.timer.nextId
  times : ∀ f ∈ x.pending, x.lastPop ≤ f.time ∧ f.time < x.endTime
  nodup : (x.pending.map Ev.id).Nodup
  unset : g.set = none → x.timer.next = none ∧ x.timer.interval = none ∧ x.timer.count = 0 ∧ g.taken = 0 ∧ g.log = [] ∧
    ∀ f ∈ x.pending, f.id < x.timer.minValid
  armed : ∀ e i, g.set = some (e, i) → x.timer.interval = i ∧ x.timer.count + g.taken = g.log.length ∧ (simStart ≤ e ∧ e ≤ emuMax) ∧
    (∀ p, i = some p → 0 < p ∧ x.endTime + p ≤ emuMax) ∧
    (∀ j (h : j < g.log.length), dueAt e i j ≤ g.log[j] ∧ g.log[j] ≤ x.lastPop ∧ (late = false → g.log[j] = dueAt e i j)) ∧
    ((i = none ∧ g.log.length = 1 ∧ x.timer.next = none ∧ ∀ f ∈ x.pending, f.id < x.timer.minValid) ∨
     ((i = none → g.log.length = 0) ∧ x.timer.next = some (dueAt e i g.log.length) ∧ Valid late x (dueAt e i g.log.length)))

theorem scheduled_valid {late : Bool} {x : World} {n : Nat} (ids : x.timer.minValid ≤ x.timer.nextId)
    (h : ∀ f ∈ x.pending, f.id < x.timer.minValid) : Valid late (x.scheduled n) n := by
  unfold Valid World.scheduled
  generalize early x.now = a
  dsimp only
  by_cases hd : min n a ≥ x.endTime
  · rw [if_pos hd]
    exact .inr ⟨.inr (by omega), h⟩
  · rw [if_neg hd]
    refine .inl ⟨⟨min n a, x.timer.nextId⟩, List.mem_cons_self .., ids, fun _ => Nat.min_le_left _ _, fun f hf hne => ?_⟩
    rcases List.mem_cons.1 hf with hf | hf
    · exact absurd hf hne
    · exact h f hf

/-- The parts of the invariant that do not depend on the setting. -/
structure Base (x : World) : Prop where
  start : simStart ≤ x.lastPop
  order : x.lastPop ≤ x.now
  fits : x.now ≤ x.endTime
  top : x.endTime + 2000000000 ≤ emuMax
  ids : x.timer.minValid ≤ x.timer.nextId
  fresh : ∀ f ∈ x.pending, f.id < x.timer.nextId
  times : ∀ f ∈ x.pending, x.lastPop ≤ f.time ∧ f.time < x.endTime
  nodup : (x.pending.map Ev.id).Nodup

theorem Inv.base {late x g} (h : Inv late x g) : Base x := ⟨h.start, h.order, h.fits, h.top, h.ids, h.fresh, h.times, h.nodup⟩

theorem Base.now_ge {x : World} (h : Base x) : simStart ≤ x.now := Nat.le_trans h.start h.order

theorem Base.now_top {x : World} (h : Base x) : x.now + 2000000000 ≤ emuMax :=
  Nat.le_trans (Nat.add_le_add_right h.fits _) h.top

theorem scheduled_base {x : World} {n : Nat} (h : Base x)
    (h3 : min n (early x.now) ≥ x.endTime ∨ x.lastPop ≤ min n (early x.now)) : Base (x.scheduled n) := by
  have hids := h.ids
  unfold World.scheduled
  generalize early x.now = a at h3
  by_cases hd : min n a ≥ x.endTime
  · rw [if_pos hd]
    exact ⟨h.start, h.order, h.fits, h.top, Nat.le_succ_of_le h.ids, fun f hf => Nat.lt_succ_of_lt (h.fresh f hf), h.times, h.nodup⟩
  · rw [if_neg hd]
    refine ⟨h.start, h.order, h.fits, h.top, Nat.le_succ_of_le h.ids, ?_, ?_, ?_⟩
    · intro f hf
      rcases List.mem_cons.1 hf with rfl | hf
      · exact Nat.lt_succ_self _
      · exact Nat.lt_succ_of_lt (h.fresh f hf)
    · intro f hf
      rcases List.mem_cons.1 hf with rfl | hf
      · exact ⟨h3.resolve_left hd, Nat.lt_of_not_le hd⟩
      · exact h.times f hf
    · refine List.nodup_cons.2 ⟨fun hf => ?_, h.nodup⟩
      obtain ⟨f, hf, he⟩ := List.mem_map.1 hf
      have := h.fresh f hf
      dsimp only at he
      omega

/-- A world after an event was popped. -/
theorem popped_base {x : World} (h : Base x) {ev : Ev} (hm : ev ∈ x.pending) (hmin : ∀ f ∈ x.pending, ev.le f) :
    Base { x with pending := x.pending.erase ev, lastPop := ev.time, now := ev.time } := by
  have ht := h.times ev hm
  refine ⟨Nat.le_trans h.start ht.1, Nat.le_refl _, Nat.le_of_lt ht.2, h.top, h.ids, ?_, ?_, h.nodup.sublist (List.erase_sublist.map _)⟩
  · exact fun f hf => h.fresh f (List.mem_of_mem_erase hf)
  · intro f hf
    have hf := List.mem_of_mem_erase hf
    refine ⟨?_, (h.times f hf).2⟩
    show ev.time ≤ f.time
    rcases hmin f hf with hh | hh
    · exact Nat.le_of_lt hh
    · exact Nat.le_of_eq hh.1

theorem valid_popped {late : Bool} {x : World} {n : Nat} (h : Valid late x n) {ev : Ev} (hs : ev.id < x.timer.minValid) (l nw : Nat) :
    Valid late { x with pending := x.pending.erase ev, lastPop := l, now := nw } n := by
  rcases h with ⟨e0, h1, h2, h3, h4⟩ | ⟨h1, h2⟩
  · refine .inl ⟨e0, (List.mem_erase_of_ne ?_).2 h1, h2, h3, fun f hf => h4 f (List.mem_of_mem_erase hf)⟩
    rintro rfl
    exact absurd hs (Nat.not_lt.2 h2)
  · exact .inr ⟨h1, fun f hf => h2 f (List.mem_of_mem_erase hf)⟩

theorem base_inv {late : Bool} {x : World} {g : Ghost} (h : Base x)
    (unset : g.set = none → x.timer.next = none ∧ x.timer.interval = none ∧ x.timer.count = 0 ∧ g.taken = 0 ∧ g.log = [] ∧
      ∀ f ∈ x.pending, f.id < x.timer.minValid)
    (armed : ∀ e i, g.set = some (e, i) → x.timer.interval = i ∧ x.timer.count + g.taken = g.log.length ∧ (simStart ≤ e ∧ e ≤ emuMax) ∧
      (∀ p, i = some p → 0 < p ∧ x.endTime + p ≤ emuMax) ∧
      (∀ j (h : j < g.log.length), dueAt e i j ≤ g.log[j] ∧ g.log[j] ≤ x.lastPop ∧ (late = false → g.log[j] = dueAt e i j)) ∧
      ((i = none ∧ g.log.length = 1 ∧ x.timer.next = none ∧ ∀ f ∈ x.pending, f.id < x.timer.minValid) ∨
       ((i = none → g.log.length = 0) ∧ x.timer.next = some (dueAt e i g.log.length) ∧ Valid late x (dueAt e i g.log.length)))) :
    Inv late x g := ⟨h.start, h.order, h.fits, h.top, h.ids, h.fresh, h.times, h.nodup, unset, armed⟩

/-- Popping an event that is not valid, or another event of the host, changes nothing for the timer. -/
theorem inv_stale {late : Bool} {x : World} {g : Ghost} (h : Inv late x g) {ev : Ev} (hm : ev ∈ x.pending)
    (hmin : ∀ f ∈ x.pending, ev.le f) (hs : ev.id < x.timer.minValid) :
    Inv late { x with pending := x.pending.erase ev, lastPop := ev.time, now := ev.time } g := by
  have ht := h.times ev hm
  refine base_inv (popped_base h.base hm hmin) ?_ ?_
  · intro hg
    obtain ⟨a1, a2, a3, a4, a5, a6⟩ := h.unset hg
    exact ⟨a1, a2, a3, a4, a5, fun f hf => a6 f (List.mem_of_mem_erase hf)⟩
  · intro e i hg
    obtain ⟨a1, a2, a3, a4, a5, a6⟩ := h.armed e i hg
    refine ⟨a1, a2, a3, a4, fun j hj => ?_, ?_⟩
    · obtain ⟨b1, b2, b3⟩ := a5 j hj
      exact ⟨b1, Nat.le_trans b2 ht.1, b3⟩
    · rcases a6 with ⟨b1, b2, b3, b4⟩ | ⟨b1, b2, b3⟩
      · exact .inl ⟨b1, b2, b3, fun f hf => b4 f (List.mem_of_mem_erase hf)⟩
      · exact .inr ⟨b1, b2, valid_popped b3 hs _ _⟩

theorem erase_ids {l : List Ev} (h : (l.map Ev.id).Nodup) {ev : Ev} (hm : ev ∈ l) : ∀ f ∈ l.erase ev, f.id ≠ ev.id := by
  induction l with
  | nil => cases hm
  | cons a l ih =>
    rw [List.map_cons, List.nodup_cons] at h
    intro f hf
    by_cases ha : a = ev
    · subst ha
      rw [List.erase_cons_head] at hf
      exact fun he => h.1 (he ▸ List.mem_map_of_mem hf)
    · rw [List.erase_cons_tail (by simpa using ha)] at hf
      have hl : ev ∈ l := (List.mem_cons.1 hm).resolve_left (fun hh => ha hh.symm)
      rcases List.mem_cons.1 hf with rfl | hf
      · exact fun he => h.1 (he ▸ List.mem_map_of_mem hl)
      · exact ih h.2 hl f hf

/-- A valid event: what the invariant says about it. -/
theorem valid_event {late : Bool} {x : World} {g : Ghost} (h : Inv late x g) {ev : Ev} (hm : ev ∈ x.pending)
    (hv : ¬ ev.id < x.timer.minValid) :
    ∃ e i, g.set = some (e, i) ∧ (i = none → g.log.length = 0) ∧ x.timer.next = some (dueAt e i g.log.length) ∧
      (late = false → ev.time ≤ dueAt e i g.log.length) ∧ ∀ f ∈ x.pending.erase ev, f.id < x.timer.minValid := by
  cases hg : g.set with
  | none => exact absurd ((h.unset hg).2.2.2.2.2 ev hm) hv
  | some ei =>
    obtain ⟨e, i⟩ := ei
    obtain ⟨_, _, _, _, _, a6⟩ := h.armed e i hg
    refine ⟨e, i, rfl, ?_⟩
    rcases a6 with ⟨_, _, _, b4⟩ | ⟨b1, b2, b3⟩
    · exact absurd (b4 ev hm) hv
    · refine ⟨b1, b2, ?_⟩
      rcases b3 with ⟨e0, c1, c2, c3, c4⟩ | ⟨_, c2⟩
      · have : ev = e0 := Decidable.byContradiction fun hne => hv (c4 ev hm hne)
        subst this
        refine ⟨c3, fun f hf => c4 f (List.mem_of_mem_erase hf) ?_⟩
        rintro rfl
        exact erase_ids h.nodup hm f hf rfl
      · exact absurd (c2 ev hm) hv

theorem dueAt_succ (e : Nat) (p j : Nat) : dueAt e (some p) (j + 1) = dueAt e (some p) j + p := by
  unfold dueAt
  simp only [Option.getD_some]
  rw [Nat.mul_add, Nat.mul_one, Nat.add_assoc]

/-- Running an event of the timer: the exact result. -/
theorem fire_spec {late : Bool} {x : World} {g : Ghost} (h : Inv late x g) {ev : Ev} (hm : ev ∈ x.pending)
    (hmin : ∀ f ∈ x.pending, ev.le f) :
    (late = true ∧ x.fire ev = .panic) ∨
    ∃ y called, x.fire ev = .ok (y, called) ∧ Inv late y { g with log := if called then g.log ++ [ev.time] else g.log } := by
  have ht := h.times ev hm
  have hpb := popped_base h.base hm hmin
  unfold World.fire
  rw [show R.assert (decide (ev.time ≥ x.lastPop)) = .ok () by rw [decide_eq_true ht.1]; rfl, R.bind_ok]
  unfold World.expire
  by_cases hv : ev.id < x.timer.minValid
  · rw [if_pos hv]
    exact .inr ⟨_, false, rfl, inv_stale h hm hmin hv⟩
  · rw [if_neg hv]
    obtain ⟨e, i, hg, h0, hn, hle, hst⟩ := valid_event h hm hv
    obtain ⟨a1, a2, a3, a4, a5, _⟩ := h.armed e i hg
    dsimp only
    rw [hn, R.unwrap_some, R.bind_ok]
    generalize hN : dueAt e i g.log.length = N at *
    have hge := early_gt ev.time (Nat.le_trans h.start ht.1)
    by_cases hlt : N > ev.time
    · rw [if_pos hlt]
      rw [schedule_eq (x := { x with pending := x.pending.erase ev, lastPop := ev.time, now := ev.time }) hn hpb.now_ge hpb.now_top]
      have h3 : ev.time ≤ min N (early ev.time) := by
        generalize early ev.time = a at hge
        omega
      rw [if_pos (.inr h3), R.bind_ok]
      refine .inr ⟨_, false, rfl, base_inv (scheduled_base hpb (.inr h3)) ?_ ?_⟩
      · intro hh; rw [show ({ g with log := if false = true then g.log ++ [ev.time] else g.log } : Ghost).set = g.set from rfl, hg] at hh; cases hh
      · intro e' i' hh
        rw [show ({ g with log := if false = true then g.log ++ [ev.time] else g.log } : Ghost).set = g.set from rfl, hg] at hh
        obtain ⟨rfl, rfl⟩ := Prod.mk.inj (Option.some.inj hh)
        refine ⟨a1, a2, a3, a4, fun j hj => ?_, .inr ⟨h0, ?_, ?_⟩⟩
        · obtain ⟨b1, b2, b3⟩ := a5 j hj
          exact ⟨b1, Nat.le_trans b2 ht.1, b3⟩
        · exact hn.trans (show some N = some (dueAt e i g.log.length) by rw [hN])
        · show Valid late (World.scheduled _ N) (dueAt e i g.log.length)
          rw [hN]
          exact scheduled_valid hpb.ids hst
    · rw [if_neg hlt]
      have hlogs : ∀ (lp : Nat), ev.time ≤ lp → ∀ j (hj : j < (g.log ++ [ev.time]).length), dueAt e i j ≤ (g.log ++ [ev.time])[j] ∧
          (g.log ++ [ev.time])[j] ≤ lp ∧ (late = false → (g.log ++ [ev.time])[j] = dueAt e i j) := by
        intro lp hlp j hj
        by_cases hj' : j < g.log.length
        · rw [List.getElem_append_left hj']
          obtain ⟨b1, b2, b3⟩ := a5 j hj'
          exact ⟨b1, Nat.le_trans b2 (Nat.le_trans ht.1 hlp), b3⟩
        · have : j = g.log.length := by rw [List.length_append, List.length_singleton] at hj; omega
          subst this
          rw [List.getElem_append_right (Nat.le_refl _)]
          simp only [Nat.sub_self, List.getElem_cons_zero]
          rw [hN]
          exact ⟨by omega, hlp, fun hl => Nat.le_antisymm (hle hl) (by omega)⟩
      unfold World.renew
      dsimp only
      cases i with
      | none =>
        rw [a1]
        refine .inr ⟨_, true, rfl, base_inv ⟨hpb.start, hpb.order, hpb.fits, hpb.top, hpb.ids, hpb.fresh, hpb.times, hpb.nodup⟩ ?_ ?_⟩
        · intro hh; rw [show ({ g with log := if true = true then g.log ++ [ev.time] else g.log } : Ghost).set = g.set from rfl, hg] at hh; cases hh
        · intro e' i' hh
          rw [show ({ g with log := if true = true then g.log ++ [ev.time] else g.log } : Ghost).set = g.set from rfl, hg] at hh
          obtain ⟨rfl, rfl⟩ := Prod.mk.inj (Option.some.inj hh)
          refine ⟨rfl, ?_, a3, a4, hlogs _ (Nat.le_refl _), .inl ⟨rfl, ?_, rfl, hst⟩⟩
          · show x.timer.count + 1 + g.taken = (g.log ++ [ev.time]).length
            rw [List.length_append, List.length_singleton]
            omega
          · show (g.log ++ [ev.time]).length = 1
            rw [List.length_append, h0 rfl]
            rfl
      | some p =>
        obtain ⟨hp, hpt⟩ := a4 p rfl
        rw [a1]
        dsimp only
        have hNp : N + p ≤ emuMax := by omega
        rw [decide_eq_true hp, R.assert_true, R.bind_ok, emu_add hNp, R.unwrap_some, R.bind_ok]
        rw [schedule_eq (x := ⟨⟨some (N + p), some p, x.timer.count + 1, x.timer.nextId, x.timer.minValid⟩, ev.time, ev.time, x.endTime, x.pending.erase ev⟩)
          (n := N + p) rfl hpb.now_ge hpb.now_top]
        dsimp only
        by_cases h3 : min (N + p) (early ev.time) ≥ x.endTime ∨ ev.time ≤ min (N + p) (early ev.time)
        · rw [if_pos h3, R.bind_ok]
          refine .inr ⟨_, true, rfl, base_inv (scheduled_base
            (x := ⟨⟨some (N + p), some p, x.timer.count + 1, x.timer.nextId, x.timer.minValid⟩, ev.time, ev.time, x.endTime, x.pending.erase ev⟩)
            ⟨hpb.start, hpb.order, hpb.fits, hpb.top, hpb.ids, hpb.fresh, hpb.times, hpb.nodup⟩ h3) ?_ ?_⟩
          · intro hh; rw [show ({ g with log := if true = true then g.log ++ [ev.time] else g.log } : Ghost).set = g.set from rfl, hg] at hh; cases hh
          · intro e' i' hh
            rw [show ({ g with log := if true = true then g.log ++ [ev.time] else g.log } : Ghost).set = g.set from rfl, hg] at hh
            obtain ⟨rfl, rfl⟩ := Prod.mk.inj (Option.some.inj hh)
            have hnx : dueAt e (some p) (g.log ++ [ev.time]).length = N + p := by
              rw [List.length_append, List.length_singleton, dueAt_succ, hN]
            refine ⟨rfl, ?_, a3, a4, hlogs _ (Nat.le_refl _), .inr ⟨fun hh => (by cases hh), ?_, ?_⟩⟩
            · show x.timer.count + 1 + g.taken = (g.log ++ [ev.time]).length
              rw [List.length_append, List.length_singleton]
              omega
            · show some (N + p) = some (dueAt e (some p) (g.log ++ [ev.time]).length)
              rw [hnx]
            · show Valid late (World.scheduled _ (N + p)) (dueAt e (some p) (g.log ++ [ev.time]).length)
              rw [hnx]
              exact scheduled_valid hpb.ids hst
        · rw [if_neg h3]
          refine .inl ⟨?_, rfl⟩
          cases hl : late with
          | true => rfl
          | false =>
            have := hle hl
            exfalso
            apply h3
            right
            generalize early ev.time = a at hge ⊢
            omega

theorem arm_eq {late : Bool} {x : World} {g : Ghost} (h : Inv late x g) {e : Nat} {i : Option Nat} (he : x.now ≤ e)
    (hi : ∀ p, i = some p → 0 < p) :
    x.arm e i = .ok (World.scheduled { x with timer := x.timer.reset (some e) i } e) := by
  unfold World.arm
  rw [decide_eq_true (show e ≥ x.now from he), R.assert_true, R.bind_ok]
  have e1 : R.assert (i.all (fun i => decide (0 < i))) = .ok () := by
    cases i with
    | none => rfl
    | some p => rw [Option.all_some, decide_eq_true (hi p rfl)]; rfl
  rw [e1, R.bind_ok, schedule_eq (x := { x with timer := x.timer.reset (some e) i }) rfl h.base.now_ge h.base.now_top]
  have hge := early_gt x.now h.base.now_ge
  have := h.order
  rw [if_pos]
  dsimp only
  right
  generalize early x.now = a at hge ⊢
  omega

theorem arm_inv {late : Bool} {x : World} {g : Ghost} (h : Inv late x g) {e : Nat} {i : Option Nat} (he : x.now ≤ e) (hm : e ≤ emuMax)
    (hi : ∀ p, i = some p → 0 < p) (hp : ∀ p, i = some p → x.endTime + p ≤ emuMax) :
    Inv late (World.scheduled { x with timer := x.timer.reset (some e) i } e) ⟨some (e, i), 0, []⟩ := by
  have hge := early_gt x.now h.base.now_ge
  have ho := h.order
  have hb : Base ({ x with timer := x.timer.reset (some e) i } : World) :=
    ⟨h.start, h.order, h.fits, h.top, Nat.le_refl _, h.fresh, h.times, h.nodup⟩
  refine base_inv (scheduled_base hb ?_) ?_ ?_
  · right
    dsimp only
    generalize early x.now = a at hge ⊢
    omega
  · intro hh; cases hh
  · intro e' i' hh
    obtain ⟨rfl, rfl⟩ := Prod.mk.inj (Option.some.inj hh)
    refine ⟨rfl, rfl, ⟨Nat.le_trans h.base.now_ge he, hm⟩, fun p hpp => ⟨hi p hpp, hp p hpp⟩, fun j hj => absurd hj (Nat.not_lt_zero _), .inr ⟨fun _ => rfl, ?_, ?_⟩⟩
    · show some e = some (dueAt e i 0)
      rw [dueAt, Nat.mul_zero, Nat.add_zero]
    · show Valid late _ (dueAt e i 0)
      rw [dueAt, Nat.mul_zero, Nat.add_zero]
      exact scheduled_valid hb.ids h.fresh

theorem arm_ok {x y : World} {e : Nat} {i : Option Nat} (h : x.arm e i = .ok y) : x.now ≤ e ∧ ∀ p, i = some p → 0 < p := by
  unfold World.arm at h
  rw [R.bind_eq_ok] at h
  obtain ⟨_, h1, h⟩ := h
  rw [R.bind_eq_ok] at h
  obtain ⟨_, h2, _⟩ := h
  refine ⟨of_decide_eq_true (R.assert_eq_ok.1 h1), ?_⟩
  rintro p rfl
  exact of_decide_eq_true (R.assert_eq_ok.1 h2)

theorem run_inv {late : Bool} {x : World} {g : Ghost} (h : Run late x g) : Inv late x g := by
  induction h with
  | new h1 h2 h3 =>
    refine ⟨h1, Nat.le_refl _, h2, h3, Nat.le_refl _, fun _ hf => (by cases hf), fun _ hf => (by cases hf), List.nodup_nil, ?_, ?_⟩
    · exact fun _ => ⟨rfl, rfl, rfl, rfl, rfl, fun _ hf => (by cases hf)⟩
    · intro e i hh; cases hh
  | arm _ hm hp e ih =>
    obtain ⟨h1, h2⟩ := arm_ok e
    rw [arm_eq ih h1 h2] at e
    obtain rfl := R.ok.inj e
    exact arm_inv ih h1 hm h2 hp
  | @disarm x g _ ih =>
    refine base_inv ⟨ih.start, ih.order, ih.fits, ih.top, Nat.le_refl _, ih.fresh, ih.times, ih.nodup⟩ ?_ ?_
    · exact fun _ => ⟨rfl, rfl, rfl, rfl, rfl, ih.fresh⟩
    · intro e i hh; cases hh
  | @consume x g _ ih =>
    refine base_inv ⟨ih.start, ih.order, ih.fits, ih.top, ih.ids, ih.fresh, ih.times, ih.nodup⟩ ?_ ?_
    · intro hh
      obtain ⟨a1, a2, a3, a4, a5, a6⟩ := ih.unset hh
      exact ⟨a1, a2, rfl, by show g.taken + x.timer.count = 0; omega, a5, a6⟩
    · intro e i hh
      obtain ⟨a1, a2, a3, a4, a5, a6⟩ := ih.armed e i hh
      refine ⟨a1, ?_, a3, a4, a5, a6⟩
      show 0 + (g.taken + x.timer.count) = g.log.length
      omega
  | fire _ hm hmin e ih =>
    rcases fire_spec ih hm hmin with ⟨_, hh⟩ | ⟨y, c, hh, hi⟩
    · rw [hh] at e; cases e
    · rw [hh] at e
      obtain ⟨rfl, rfl⟩ := Prod.mk.inj (R.ok.inj e)
      exact hi
  | @delay x g ev d y _ hl hm hmin e ih =>
    have ht := ih.times ev hm
    have hpb := popped_base ih.base hm hmin
    unfold World.delay at e
    rw [decide_eq_true (show ev.time ≥ x.lastPop from ht.1), R.assert_true, R.bind_ok] at e
    rw [R.bind_eq_ok] at e
    obtain ⟨t, et, e⟩ := e
    have htt : t = ev.time + d := by
      unfold Emu.checkedAdd U64.checkedAdd at et
      by_cases hb : ev.time + d ≤ u64Max
      · rw [if_pos hb] at et
        dsimp only at et
        unfold Emu.fromC at et
        by_cases hb2 : ev.time + d = emuInvalid ∨ ev.time + d > emuMax
        · rw [if_pos hb2] at et; cases et
        · rw [if_neg hb2] at et; exact (R.ok.inj et).symm
      · rw [if_neg hb] at et; cases et
    subst htt
    unfold World.push at e
    dsimp only at e
    subst hl
    by_cases hd : ev.time + d ≥ x.endTime
    · rw [if_pos hd] at e
      obtain rfl := R.ok.inj e
      refine base_inv hpb ?_ ?_
      · intro hg
        obtain ⟨a1, a2, a3, a4, a5, a6⟩ := ih.unset hg
        exact ⟨a1, a2, a3, a4, a5, fun f hf => a6 f (List.mem_of_mem_erase hf)⟩
      · intro e i hg
        obtain ⟨a1, a2, a3, a4, a5, a6⟩ := ih.armed e i hg
        refine ⟨a1, a2, a3, a4, fun j hj => ?_, ?_⟩
        · obtain ⟨b1, b2, b3⟩ := a5 j hj
          exact ⟨b1, Nat.le_trans b2 ht.1, b3⟩
        · rcases a6 with ⟨b1, b2, b3, b4⟩ | ⟨b1, b2, b3⟩
          · exact .inl ⟨b1, b2, b3, fun f hf => b4 f (List.mem_of_mem_erase hf)⟩
          · refine .inr ⟨b1, b2, ?_⟩
            by_cases hs : ev.id < x.timer.minValid
            · exact valid_popped b3 hs _ _
            · obtain ⟨_, _, _, _, _, _, hst⟩ := valid_event ih hm hs
              exact .inr ⟨.inl rfl, hst⟩
    · rw [if_neg hd, decide_eq_true (show ev.time + d ≥ ev.time from Nat.le_add_right _ _), R.assert_true, R.bind_ok] at e
      obtain rfl := R.ok.inj e
      have hids := erase_ids ih.nodup hm
      refine base_inv ⟨hpb.start, hpb.order, hpb.fits, hpb.top, hpb.ids, ?_, ?_, ?_⟩ ?_ ?_
      · intro f hf
        rcases List.mem_cons.1 hf with rfl | hf
        · exact ih.fresh ev hm
        · exact hpb.fresh f hf
      · intro f hf
        rcases List.mem_cons.1 hf with rfl | hf
        · exact ⟨Nat.le_add_right _ _, Nat.lt_of_not_le hd⟩
        · exact hpb.times f hf
      · refine List.nodup_cons.2 ⟨fun hf => ?_, hpb.nodup⟩
        obtain ⟨f, hf, he⟩ := List.mem_map.1 hf
        exact hids f hf he
      · intro hg
        obtain ⟨a1, a2, a3, a4, a5, a6⟩ := ih.unset hg
        refine ⟨a1, a2, a3, a4, a5, fun f hf => ?_⟩
        rcases List.mem_cons.1 hf with rfl | hf
        · exact a6 ev hm
        · exact a6 f (List.mem_of_mem_erase hf)
      · intro e i hg
        obtain ⟨a1, a2, a3, a4, a5, a6⟩ := ih.armed e i hg
        refine ⟨a1, a2, a3, a4, fun j hj => ?_, ?_⟩
        · obtain ⟨b1, b2, b3⟩ := a5 j hj
          exact ⟨b1, Nat.le_trans b2 ht.1, b3⟩
        · rcases a6 with ⟨b1, b2, b3, b4⟩ | ⟨b1, b2, b3⟩
          · refine .inl ⟨b1, b2, b3, fun f hf => ?_⟩
            rcases List.mem_cons.1 hf with rfl | hf
            · exact b4 ev hm
            · exact b4 f (List.mem_of_mem_erase hf)
          · refine .inr ⟨b1, b2, ?_⟩
            by_cases hs : ev.id < x.timer.minValid
            · rcases valid_popped b3 hs ev.time ev.time with ⟨e0, c1, c2, c3, c4⟩ | ⟨c1, c2⟩
              · refine .inl ⟨e0, List.mem_cons_of_mem _ c1, c2, c3, fun f hf hne => ?_⟩
                rcases List.mem_cons.1 hf with rfl | hf
                · exact hs
                · exact c4 f hf hne
              · refine .inr ⟨c1, fun f hf => ?_⟩
                rcases List.mem_cons.1 hf with rfl | hf
                · exact hs
                · exact c2 f hf
            · obtain ⟨_, _, _, _, _, _, hst⟩ := valid_event ih hm hs
              refine .inl ⟨⟨ev.time + d, ev.id⟩, List.mem_cons_self .., Nat.not_lt.1 hs, fun hh => (by cases hh), fun f hf hne => ?_⟩
              rcases List.mem_cons.1 hf with hf | hf
              · exact absurd hf hne
              · exact hst f hf
  | @other x g t _ h1 h2 h3 ih =>
    refine base_inv ⟨Nat.le_trans ih.start h1, Nat.le_refl _, Nat.le_of_lt h2, ih.top, ih.ids, ih.fresh,
      fun f hf => ⟨h3 f hf, (ih.times f hf).2⟩, ih.nodup⟩ ih.unset ?_
    intro e i hg
    obtain ⟨a1, a2, a3, a4, a5, a6⟩ := ih.armed e i hg
    refine ⟨a1, a2, a3, a4, fun j hj => ?_, a6⟩
    obtain ⟨b1, b2, b3⟩ := a5 j hj
    exact ⟨b1, Nat.le_trans b2 h1, b3⟩
  | @tick x g t _ h1 h2 ih =>
    exact base_inv ⟨ih.start, Nat.le_trans ih.order h1, h2, ih.top, ih.ids, ih.fresh, ih.times, ih.nodup⟩ ih.unset ih.armed

/-! ## Theorems -/

theorem due_lt {e : Nat} {i : Option Nat} {t k : Nat} (h : t < dueAt e i k) (h0 : i = none → k = 0) (hp : ∀ p, i = some p → 0 < p) :
    due e i t ≤ k := by
  unfold due
  by_cases he : t < e
  · rw [if_pos he]; exact Nat.zero_le _
  · rw [if_neg he]
    cases i with
    | none => rw [h0 rfl, dueAt, Nat.mul_zero] at h; omega
    | some p =>
      have hp := hp p rfl
      unfold dueAt at h
      rw [Option.getD_some] at h
      show (t - e) / p + 1 ≤ k
      have : (t - e) / p < k := (Nat.div_lt_iff_lt_mul hp).2 (by rw [Nat.mul_comm]; omega)
      omega

theorem due_ge {e : Nat} {i : Option Nat} {t j : Nat} (h : dueAt e i j ≤ t) (h0 : i = none → j = 0) (hp : ∀ p, i = some p → 0 < p) :
    j + 1 ≤ due e i t := by
  have he : ¬ t < e := by unfold dueAt at h; omega
  unfold due
  rw [if_neg he]
  cases i with
  | none => rw [h0 rfl]; exact Nat.le_refl _
  | some p =>
    have hp := hp p rfl
    unfold dueAt at h
    rw [Option.getD_some] at h
    show j + 1 ≤ (t - e) / p + 1
    have : j ≤ (t - e) / p := (Nat.le_div_iff_mul_le hp).2 (by rw [Nat.mul_comm]; omega)
    omega

/-- **C26** (never early). In every history, even with delays: since the timer was armed it has expired at most as
    often as it was due when the last event was popped; each call of the callback was at or after its due time;
    and what was not consumed is still counted. -/
theorem C26_never_early {late : Bool} {x : World} {g : Ghost} (h : Run late x g) {e : Nat} {i : Option Nat} (hs : g.set = some (e, i)) :
    x.timer.count + g.taken = g.log.length ∧ g.log.length ≤ due e i x.lastPop ∧
    ∀ j (hj : j < g.log.length), dueAt e i j ≤ g.log[j] ∧ g.log[j] ≤ x.lastPop := by
  obtain ⟨_, a2, _, a4, a5, a6⟩ := (run_inv h).armed e i hs
  refine ⟨a2, ?_, fun j hj => ⟨(a5 j hj).1, (a5 j hj).2.1⟩⟩
  cases hk : g.log.length with
  | zero => exact Nat.zero_le _
  | succ k =>
    obtain ⟨b1, b2, _⟩ := a5 k (by omega)
    refine due_ge (Nat.le_trans b1 b2) ?_ (fun p hp => (a4 p hp).1)
    intro hi
    rcases a6 with ⟨_, c2, _⟩ | ⟨c1, _⟩
    · omega
    · have := c1 hi; omega

/-- **C26** (exactly when due). Without processor delays: at every time `t` up to which the host's events have been
    run, the timer has expired exactly as often as it was due, counting what was consumed, and the callback was
    called exactly at the due times. -/
theorem C26_count {x : World} {g : Ghost} (h : Run false x g) {e : Nat} {i : Option Nat} (hs : g.set = some (e, i))
    {t : Nat} (h1 : x.lastPop ≤ t) (h2 : t < x.endTime) (h3 : ∀ f ∈ x.pending, t < f.time) :
    x.timer.count + g.taken = due e i t ∧ g.log = (List.range (due e i t)).map (dueAt e i) := by
  obtain ⟨_, a2, _, a4, a5, a6⟩ := (run_inv h).armed e i hs
  obtain ⟨_, b2, _⟩ := C26_never_early h hs
  have hpos : ∀ p, i = some p → 0 < p := fun p hp => (a4 p hp).1
  have hmono : ∀ {a b}, a ≤ b → due e i a ≤ due e i b := by
    intro a b hab
    unfold due
    by_cases ha : a < e
    · rw [if_pos ha]; exact Nat.zero_le _
    · rw [if_neg ha, if_neg (by omega)]
      cases i with
      | none => exact Nat.le_refl _
      | some p => exact Nat.add_le_add_right (Nat.div_le_div_right (by omega)) 1
  have hk : g.log.length = due e i t := by
    apply Nat.le_antisymm (Nat.le_trans b2 (hmono h1))
    rcases a6 with ⟨rfl, c2, _⟩ | ⟨c1, _, c3⟩
    · rw [c2]
      unfold due
      split
      · exact Nat.zero_le _
      · exact Nat.le_refl _
    · refine due_lt ?_ c1 hpos
      rcases c3 with ⟨ev, d1, _, d3, _⟩ | ⟨d1, _⟩
      · exact Nat.lt_of_lt_of_le (h3 ev d1) (d3 rfl)
      · rcases d1 with d1 | d1
        · cases d1
        · omega
  refine ⟨a2.trans hk, ?_⟩
  apply List.ext_getElem
  · simp [hk]
  · intro j hj _
    rw [(a5 j hj).2.2 rfl]
    simp

/-- **C26** (re-arming and disarming cancel). While the timer is disarmed it does not expire and the callback is not
    called, whatever was scheduled before; after it is armed, what happens is that of the new setting only
    (`C26_count`), and after both the count starts at zero. -/
theorem C26_cancel {late : Bool} {x : World} {g : Ghost} (h : Run late x g) :
    (g.set = none → x.timer.count = 0 ∧ g.log = [] ∧ x.remaining = none) ∧
    (∀ ev ∈ x.disarm.pending, ∃ y, x.disarm.fire ev = .ok (y, false) ∧ y.timer = x.disarm.timer) := by
  have hi := run_inv h
  refine ⟨fun hs => ?_, fun ev hev => ?_⟩
  · obtain ⟨a1, _, a3, _, a5, _⟩ := hi.unset hs
    exact ⟨a3, a5, by unfold World.remaining; rw [a1]; rfl⟩
  · have ht := hi.times ev hev
    unfold World.fire
    rw [show R.assert (decide (ev.time ≥ x.disarm.lastPop)) = .ok () by rw [decide_eq_true (show ev.time ≥ x.disarm.lastPop from ht.1)]; rfl, R.bind_ok]
    unfold World.expire
    exact ⟨_, if_pos (hi.fresh ev hev), rfl⟩

/-- **C26** (consuming). Consuming returns the count, and sets it to zero. (That nothing is lost is in
    `C26_count`: the sum of what was consumed and the count is the number of expirations.) -/
theorem C26_consume (x : World) : x.consume.2 = x.timer.count ∧ x.consume.1.timer.count = 0 := ⟨rfl, rfl⟩

/-- **C26** (no panic). Without processor delays, running the timer's next event never panics, and arming it for a
    time that is not in the past, with no interval or a positive one, does not either. -/
theorem C26_no_panic {x : World} {g : Ghost} (h : Run false x g) :
    (∀ ev ∈ x.pending, (∀ f ∈ x.pending, ev.le f) → (x.fire ev).Ok) ∧
    (∀ e i, x.now ≤ e → (∀ p, i = some p → 0 < p) → (x.arm e i).Ok) := by
  have hi := run_inv h
  refine ⟨fun ev hm hmin => ?_, fun e i he hp => ⟨_, arm_eq hi he hp⟩⟩
  rcases fire_spec hi hm hmin with ⟨hh, _⟩ | ⟨y, c, hh, _⟩
  · cases hh
  · exact ⟨_, hh⟩

/-- **C26** (progress). After a valid event was run, the next one is later, by at most two seconds: the timer never
    keeps the host at one instant, and never runs dry while it is armed. -/
theorem C26_progress {x : World} {g : Ghost} (h : Run false x g) {ev : Ev} (hm : ev ∈ x.pending) (hmin : ∀ f ∈ x.pending, ev.le f)
    (hv : x.timer.minValid ≤ ev.id) {y : World} {c : Bool} (e : x.fire ev = .ok (y, c)) :
    (∀ f ∈ y.pending, y.timer.minValid ≤ f.id → ev.time < f.time ∧ f.time ≤ ev.time + 2000000000) ∧
    (∀ n, y.timer.next = some n → n < y.endTime → ∃ f ∈ y.pending, y.timer.minValid ≤ f.id) := by
  have hi := run_inv h
  have ht := hi.times ev hm
  have hpb := popped_base hi.base hm hmin
  have hy := run_inv (h.fire hm hmin e)
  obtain ⟨e0, i, hg, h0, hn, hle, hst⟩ := valid_event hi hm (Nat.not_lt.2 hv)
  obtain ⟨a1, _, _, a4, _, _⟩ := hi.armed e0 i hg
  have hle := hle rfl
  have hge := early_gt ev.time (Nat.le_trans hi.start ht.1)
  have key : ∀ (z : World) (n : Nat), z.now = ev.time → ev.time < n → z.timer.minValid ≤ z.timer.nextId → (∀ f ∈ z.pending, f.id < z.timer.minValid) →
      (∀ f ∈ (z.scheduled n).pending, (z.scheduled n).timer.minValid ≤ f.id → ev.time < f.time ∧ f.time ≤ ev.time + 2000000000) := by
    intro z n hz hn hids hst f hf hf2
    unfold World.scheduled at hf hf2
    rw [hz] at hf hf2
    generalize early ev.time = a at hge hf hf2
    dsimp only at hf hf2
    by_cases hd : min n a ≥ z.endTime
    · rw [if_pos hd] at hf
      have := hst f hf
      omega
    · rw [if_neg hd] at hf
      rcases List.mem_cons.1 hf with rfl | hf
      · dsimp only; omega
      · have := hst f hf
        omega
  constructor
  · unfold World.fire at e
    rw [show R.assert (decide (ev.time ≥ x.lastPop)) = .ok () by rw [decide_eq_true ht.1]; rfl, R.bind_ok] at e
    unfold World.expire at e
    rw [if_neg (Nat.not_lt.2 hv)] at e
    dsimp only at e
    rw [hn, R.unwrap_some, R.bind_ok] at e
    generalize dueAt e0 i g.log.length = N at *
    by_cases hlt : N > ev.time
    · rw [if_pos hlt, schedule_eq (x := { x with pending := x.pending.erase ev, lastPop := ev.time, now := ev.time }) hn hpb.now_ge hpb.now_top] at e
      rw [if_pos (.inr (by generalize early ev.time = a at hge ⊢; dsimp only; omega)), R.bind_ok] at e
      obtain ⟨rfl, rfl⟩ := Prod.mk.inj (R.ok.inj e)
      exact key { x with pending := x.pending.erase ev, lastPop := ev.time, now := ev.time } N rfl hlt hpb.ids hst
    · rw [if_neg hlt] at e
      unfold World.renew at e
      dsimp only at e
      rw [a1] at e
      cases i with
      | none =>
        obtain ⟨rfl, rfl⟩ := Prod.mk.inj (R.ok.inj e)
        intro f hf hf2
        exact absurd (hst f hf) (Nat.not_lt.2 hf2)
      | some p =>
        obtain ⟨hp, hpt⟩ := a4 p rfl
        dsimp only at e
        have hNp : N + p ≤ emuMax := by omega
        rw [decide_eq_true hp, R.assert_true, R.bind_ok, emu_add hNp, R.unwrap_some, R.bind_ok] at e
        rw [schedule_eq (x := ⟨⟨some (N + p), some p, x.timer.count + 1, x.timer.nextId, x.timer.minValid⟩, ev.time, ev.time, x.endTime, x.pending.erase ev⟩)
          (n := N + p) rfl hpb.now_ge hpb.now_top] at e
        rw [if_pos (.inr (by generalize early ev.time = a at hge ⊢; dsimp only; omega)), R.bind_ok] at e
        obtain ⟨rfl, rfl⟩ := Prod.mk.inj (R.ok.inj e)
        exact key ⟨⟨some (N + p), some p, x.timer.count + 1, x.timer.nextId, x.timer.minValid⟩, ev.time, ev.time, x.endTime, x.pending.erase ev⟩
          (N + p) rfl (by omega) hpb.ids hst
  · intro n hn' hlt
    obtain ⟨_, _, _, _, _, a6⟩ := hy.armed e0 i (by exact hg)
    rcases a6 with ⟨_, _, c3, _⟩ | ⟨_, c2, c3⟩
    · rw [c3] at hn'; cases hn'
    · rw [c2] at hn'
      obtain rfl := Option.some.inj hn'
      rcases c3 with ⟨f, d1, d2, _⟩ | ⟨d1, _⟩
      · exact ⟨f, d1, d2⟩
      · rcases d1 with d1 | d1
        · cases d1
        · omega

/-- **C26** (remaining time). At a time up to which the host's events have been run: `None` for a one-shot timer that
    has expired, otherwise the time to the next due time. -/
theorem C26_remaining {x : World} {g : Ghost} (h : Run false x g) {e : Nat} {i : Option Nat} (hs : g.set = some (e, i))
    (h2 : x.now < x.endTime) (h3 : ∀ f ∈ x.pending, x.now < f.time) :
    x.remaining = if i = none ∧ e ≤ x.now then none else some (dueAt e i (due e i x.now) - x.now) := by
  have hi := run_inv h
  have hc := (C26_count h hs hi.order h2 h3).2
  have hlen : g.log.length = due e i x.now := by
    have := congrArg List.length hc
    simpa using this
  obtain ⟨_, _, a3, a4, a5, a6⟩ := hi.armed e i hs
  rcases a6 with ⟨rfl, c2, c3, _⟩ | ⟨c1, c2, c3⟩
  · rw [hlen] at c2
    have : e ≤ x.now := by
      unfold due at c2
      by_cases hh : x.now < e
      · rw [if_pos hh] at c2; cases c2
      · omega
    rw [if_pos ⟨rfl, this⟩]
    unfold World.remaining
    rw [c3]
    rfl
  · rw [hlen] at c2
    have hno : ¬ (i = none ∧ e ≤ x.now) := by
      rintro ⟨rfl, hh⟩
      have := c1 rfl
      rw [hlen] at this
      unfold due at this
      rw [if_neg (by omega)] at this
      cases this
    rw [if_neg hno]
    unfold World.remaining
    rw [c2, Option.map_some]
    congr 1
    have hgt : x.now < dueAt e i (due e i x.now) := by
      rw [hlen] at c3
      rcases c3 with ⟨f, d1, _, d3, _⟩ | ⟨d1, _⟩
      · exact Nat.lt_of_lt_of_le (h3 f d1) (d3 rfl)
      · rcases d1 with d1 | d1
        · cases d1
        · omega
    have hmax : dueAt e i (due e i x.now) ≤ emuMax := by
      cases hk : due e i x.now with
      | zero => rw [dueAt, Nat.mul_zero]; exact a3.2
      | succ k =>
        have hlt : k < g.log.length := by omega
        obtain ⟨b1, b2, _⟩ := a5 k hlt
        have hf := hi.fits
        have ho := hi.order
        cases i with
        | none => have := c1 rfl; omega
        | some p =>
          have := (a4 p rfl).2
          rw [dueAt_succ]
          omega
    have hst := hi.base.now_ge
    generalize dueAt e i (due e i x.now) = d at hgt hmax
    unfold Emu.saturatingDurationSince Emu.checkedDurationSince U64.checkedSub
    rw [if_pos (Nat.le_of_lt hgt)]
    have := simMax_eq; have := emuMax_eq; have := simStart_eq
    dsimp only
    rw [sim_fromC (by omega)]
    rfl

/-! ## Executions -/

inductive Op where
  | arm (e : Nat) (i : Option Nat)
  | disarm
  | consume
  | fire (ev : Ev)
  | delay (ev : Ev) (d : Nat)

/-- Times in the examples count from the start of the simulation. -/
def at_ (t : Nat) : Nat := simStart + t

def World.first (x : World) (ev : Ev) : Bool := decide (ev ∈ x.pending) && x.pending.all (fun f => decide (ev.le f))

/-- Runs the operations, if they are possible; the second value is the log of calls of the callback. -/
def exec (late : Bool) (x : World) (log : List Nat) : List Op → Option (World × List Nat)
  | [] => some (x, log)
  | .arm e i :: ops =>
    if e ≤ emuMax ∧ i.all (fun p => decide (x.endTime + p ≤ emuMax)) = true then match x.arm e i with
      | .ok y => exec late y [] ops
      | .panic => none
    else none
  | .disarm :: ops => exec late x.disarm [] ops
  | .consume :: ops => exec late x.consume.1 log ops
  | .fire ev :: ops =>
    if x.first ev then match x.fire ev with
      | .ok (y, c) => exec late y (if c then log ++ [ev.time] else log) ops
      | .panic => none
    else none
  | .delay ev d :: ops =>
    if late && x.first ev then match x.delay ev d with
      | .ok y => exec late y log ops
      | .panic => none
    else none

def zero (endTime : Nat) : World := ⟨Timer.new, at_ 0, at_ 0, at_ endTime, []⟩

theorem first_spec {x : World} {ev : Ev} (h : x.first ev = true) : ev ∈ x.pending ∧ ∀ f ∈ x.pending, ev.le f := by
  unfold World.first at h
  rw [Bool.and_eq_true, decide_eq_true_eq, List.all_eq_true] at h
  exact ⟨h.1, fun f hf => of_decide_eq_true (h.2 f hf)⟩

theorem exec_run {late : Bool} (ops : List Op) : ∀ {x y : World} {log log' : List Nat} {g : Ghost}, Run late x g → g.log = log →
    exec late x log ops = some (y, log') → ∃ g', Run late y g' ∧ g'.log = log' := by
  induction ops with
  | nil => intro x y log log' g h hl e; cases e; exact ⟨g, h, hl⟩
  | cons o ops ih =>
    intro x y log log' g h hl e
    cases o with
    | arm t i =>
      unfold exec at e
      by_cases hc : t ≤ emuMax ∧ i.all (fun p => decide (x.endTime + p ≤ emuMax)) = true
      · rw [if_pos hc] at e
        cases ea : x.arm t i with
        | panic => rw [ea] at e; cases e
        | ok z =>
          rw [ea] at e
          refine ih (h.arm hc.1 ?_ ea) rfl e
          rintro p rfl
          simpa using hc.2
      · rw [if_neg hc] at e; cases e
    | disarm => exact ih h.disarm rfl e
    | consume => exact ih h.consume hl e
    | fire ev =>
      unfold exec at e
      by_cases hc : x.first ev = true
      · rw [if_pos hc] at e
        cases ea : x.fire ev with
        | panic => rw [ea] at e; cases e
        | ok z =>
          obtain ⟨z, c⟩ := z
          rw [ea] at e
          exact ih (h.fire (first_spec hc).1 (first_spec hc).2 ea) (by rw [hl]) e
      · rw [if_neg hc] at e; cases e
    | delay ev d =>
      unfold exec at e
      by_cases hc : (late && x.first ev) = true
      · rw [if_pos hc] at e
        rw [Bool.and_eq_true] at hc
        cases ea : x.delay ev d with
        | panic => rw [ea] at e; cases e
        | ok z =>
          rw [ea] at e
          exact ih (h.delay hc.1 (first_spec hc.2).1 (first_spec hc.2).2 ea) hl e
      · rw [if_neg hc] at e; cases e

theorem zero_run {late : Bool} {endTime : Nat} (h : endTime ≤ 1000000000000) : Run late (zero endTime) ⟨none, 0, []⟩ := by
  have := simStart_eq; have := emuMax_eq
  refine .new (Nat.le_refl _) (Nat.add_le_add_left (Nat.zero_le _) _) ?_
  unfold at_
  omega

def view (r : Option (World × List Nat)) : Option (Nat × List Nat × List Nat) :=
  r.map (fun p => (p.1.timer.count, p.2.map (· - simStart), p.1.pending.map (·.time - simStart)))

/-! A periodic timer: due at 3 s, then every 2 s. Events at second boundaries keep it going in between; the log has the
    exact due times. It is then re-armed, and the event left over from the first setting does nothing. -/
example : view (exec false (zero 100000000000) [] [.arm (at_ 3000000000) (some 2000000000), .fire ⟨at_ 2000000000, 0⟩, .fire ⟨at_ 3000000000, 1⟩,
      .consume, .fire ⟨at_ 5000000000, 2⟩]) =
    some (1, [3000000000, 5000000000], [7000000000]) := by decide +kernel

example : view (exec false (zero 100000000000) [] [.arm (at_ 3000000000) (some 2000000000), .fire ⟨at_ 2000000000, 0⟩, .arm (at_ 3500000000) none,
      .fire ⟨at_ 3000000000, 1⟩, .fire ⟨at_ 3500000000, 2⟩]) =
    some (1, [3500000000], []) := by decide +kernel

/-! The hypotheses of `C26_count` are met at 5.5 s of the first execution. -/
example : ∃ x g, Run false x g ∧ g.log.map (· - simStart) = [3000000000, 5000000000] ∧ x.pending.map (·.time - simStart) = [7000000000] := by
  cases h : exec false (zero 100000000000) [] [.arm (at_ 3000000000) (some 2000000000), .fire ⟨at_ 2000000000, 0⟩, .fire ⟨at_ 3000000000, 1⟩,
      .consume, .fire ⟨at_ 5000000000, 2⟩] with
  | none =>
    have hv : view (exec false (zero 100000000000) [] [.arm (at_ 3000000000) (some 2000000000), .fire ⟨at_ 2000000000, 0⟩, .fire ⟨at_ 3000000000, 1⟩,
      .consume, .fire ⟨at_ 5000000000, 2⟩]) = some (1, [3000000000, 5000000000], [7000000000]) := by decide +kernel
    rw [h] at hv; cases hv
  | some p =>
    obtain ⟨y, l⟩ := p
    have hv : view (exec false (zero 100000000000) [] [.arm (at_ 3000000000) (some 2000000000), .fire ⟨at_ 2000000000, 0⟩, .fire ⟨at_ 3000000000, 1⟩,
      .consume, .fire ⟨at_ 5000000000, 2⟩]) = some (1, [3000000000, 5000000000], [7000000000]) := by decide +kernel
    rw [h] at hv
    obtain ⟨g, hr, hl⟩ := exec_run _ (zero_run (by decide)) rfl h
    unfold view at hv
    rw [Option.map_some] at hv
    have hv := Option.some.inj hv
    obtain ⟨_, hv⟩ := Prod.mk.inj hv
    obtain ⟨h1, h2⟩ := Prod.mk.inj hv
    exact ⟨y, g, hr, by rw [hl]; exact h1, h2⟩

/-- **C26**, what does not hold (delays). If the processor delays a periodic timer's event by more than its interval,
    running the event panics: the next expiration is before the time of the event just popped, and the event
    queue refuses it. -/
theorem C26_delay_panics : ∃ x g ev, Run true x g ∧ ev ∈ x.pending ∧ (∀ f ∈ x.pending, ev.le f) ∧ x.fire ev = .panic := by
  cases h : exec true (zero 100000000000) [] [.arm (at_ 10) (some 5), .delay ⟨at_ 10, 0⟩ 20] with
  | none =>
    have hv : (exec true (zero 100000000000) [] [.arm (at_ 10) (some 5), .delay ⟨at_ 10, 0⟩ 20]).isSome = true := by decide +kernel
    rw [h] at hv; cases hv
  | some p =>
    obtain ⟨y, l⟩ := p
    obtain ⟨g, hr, _⟩ := exec_run _ (zero_run (by decide)) rfl h
    have hv : ((exec true (zero 100000000000) [] [.arm (at_ 10) (some 5), .delay ⟨at_ 10, 0⟩ 20]).map
      (fun p => p.1.first ⟨at_ 30, 0⟩ && decide (p.1.fire ⟨at_ 30, 0⟩ = .panic))) = some true := by decide +kernel
    rw [h] at hv
    have hv := Option.some.inj hv
    rw [Bool.and_eq_true, decide_eq_true_eq] at hv
    exact ⟨y, g, _, hr, (first_spec hv.1).1, (first_spec hv.1).2, hv.2⟩

end Shadow.Timer
