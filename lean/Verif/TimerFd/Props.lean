import Verif.TimerFd.Model
import Verif.Timer.Props
import Verif.ByteQueue.Props
import Verif.Time.Props

/-!
# Timer file descriptors: theorems (C27)
-/
namespace Shadow.TimerFd

open Shadow.Base
open Shadow.Time
open Shadow.Timer (Ev Ghost due dueAt)
open Shadow.ByteQueue (iovWrite WRes Writable room)

/-- The number that eight bytes stand for, the first being the lowest. -/
def decode : List Nat → Nat
  | [] => 0
  | b :: bs => b + 256 * decode bs

theorem decode_leBytes {n : Nat} (h : n < 18446744073709551616) : decode (leBytes n) = n := by
  simp only [leBytes, List.range, List.range.loop, List.map, decode]
  omega

/-- A `timespec` in nanoseconds. -/
def nanos (p : Int × Int) : Nat := (p.1 * 1000000000 + p.2).toNat

/-- A `timespec` that is accepted: not negative, less than a second of nanoseconds, and not too long. -/
def Fits (p : Int × Int) : Prop := 0 ≤ p.1 ∧ 0 ≤ p.2 ∧ p.2 < 1000000000 ∧ p.1 * 1000000000 + p.2 ≤ 17500059273709551614

/-- What a successful `timerfd_settime` at time `now` means: no setting for a zero value, otherwise the time of the
    first expiration, which is not in the past, and the interval, if any. -/
def setting (now : Nat) (abs : Bool) (value interval : Int × Int) : Option (Nat × Option Nat) :=
  if nanos value = 0 then none
  else some (max ((if abs then 0 else now) + nanos value) now, if nanos interval = 0 then none else some (nanos interval))

/-- Histories of a timer file descriptor. The ghost is that of the timer; `got` are the values read since the timer
    was last set. `clean` says that all memory read into could be written; `late` that the processor may delay
    the timer's events. -/
inductive Run (late clean : Bool) : World → Ghost → List Nat → Prop where
  | new {t endTime} : simStart ≤ t → t ≤ endTime → endTime + 2000000000 ≤ emuMax →
      Run late clean (World.new ⟨Timer.Timer.new, t, t, endTime, []⟩) ⟨none, 0, []⟩ []
  | settime {x g got abs v i y} : Run late clean x g got → x.tw.endTime + nanos i ≤ emuMax → x.settime abs v i = .ok (y, true) →
      Run late clean y ⟨setting x.tw.now abs v i, 0, []⟩ []
  | read {x g got dst y out} : Run late clean x g got → Writable dst → x.readv false dst = (y, out, .ok 8) →
      Run late clean y { g with taken := g.taken + x.tw.timer.count } (got ++ [decode out])
  | refused {x g got offset dst y out z} : Run late clean x g got → (clean = true → Writable dst) → x.readv offset dst = (y, out, .error z) →
      Run late clean y { g with taken := g.taken + (x.tw.timer.count - y.tw.timer.count) } got
  | close {x g got} : Run late clean x g got → Run late clean x.close g got
  | fire {x g got ev y called} : Run late clean x g got → ev ∈ x.tw.pending → (∀ f ∈ x.tw.pending, ev.le f) → x.fire ev = .ok (y, called) →
      Run late clean y { g with log := if called then g.log ++ [ev.time] else g.log } got
  | delay {x g got ev d tw} : Run late clean x g got → late = true → ev ∈ x.tw.pending → (∀ f ∈ x.tw.pending, ev.le f) →
      x.tw.delay ev d = .ok tw → Run late clean { x with tw := tw } g got
  | other {x g got t} : Run late clean x g got → x.tw.lastPop ≤ t → t < x.tw.endTime → (∀ f ∈ x.tw.pending, t ≤ f.time) →
      Run late clean { x with tw := x.tw.other t } g got
  | tick {x g got t} : Run late clean x g got → x.tw.now ≤ t → t ≤ x.tw.endTime → Run late clean { x with tw := x.tw.tick t } g got

theorem refresh_tw (x : World) : x.refresh.tw = x.tw := by
  unfold World.refresh
  cases x.closed <;> rfl

theorem refresh_closed (x : World) : x.refresh.closed = x.closed := by
  unfold World.refresh
  split <;> rfl

/-- The flag agrees with the count. -/
def Agrees (x : World) : Prop := x.readable = (!x.closed && decide (x.tw.timer.count > 0))

theorem refresh_agrees {x : World} (h : x.closed = true → x.readable = false) : Agrees x.refresh := by
  unfold Agrees World.refresh
  cases hc : x.closed with
  | true => rw [if_pos rfl, hc, h hc]; rfl
  | false => rw [if_neg (by decide)]; simp

/-! ### Writing the count -/

theorem writeAll_full : ∀ (fuel : Nat) (dst : List (List Bool)) (bytes out : List Nat), Writable dst → bytes.length ≤ room dst →
    bytes.length ≤ fuel → writeAll fuel dst bytes out = (out ++ bytes, true) := by
  intro fuel
  induction fuel with
  | zero =>
    intro dst bytes out _ _ hf
    cases bytes with
    | nil => simp [writeAll]
    | cons b bs => simp at hf
  | succ n ih =>
    intro dst bytes out hw hr hf
    unfold writeAll
    cases bytes with
    | nil => simp
    | cons b bs =>
      rw [if_neg (by simp)]
      obtain ⟨dst', e, h1, h2⟩ := ByteQueue.iovWrite_writable dst (b :: bs) 0 hw
      rw [e, Nat.min_eq_right hr]
      dsimp only
      rw [if_neg (by simp), Nat.zero_add, List.drop_length, List.take_length, ih _ _ _ h1 (by simp) (by simp), List.append_nil]

theorem leBytes_length (n : Nat) : (leBytes n).length = 8 := by simp [leBytes]

/-- What `readv` does, for memory that can be written. -/
theorem readv_writable (x : World) (dst : List (List Bool)) (hw : Writable dst) :
    x.readv false dst =
      if room dst < 8 then (x, [], .error .einval)
      else if x.tw.timer.count = 0 then ({ x with tw := x.tw.consume.1 }, [], .error .eagain)
      else (World.refresh { x with tw := x.tw.consume.1 }, leBytes x.tw.timer.count, .ok 8) := by
  unfold World.readv
  rw [if_neg (by decide)]
  by_cases h8 : room dst < 8
  · rw [if_pos (show (dst.map List.length).sum < 8 from h8), if_pos h8]
  · rw [if_neg (show ¬ (dst.map List.length).sum < 8 from h8), if_neg h8]
    dsimp only
    rw [show x.tw.consume.2 = x.tw.timer.count from rfl]
    by_cases hc : x.tw.timer.count = 0
    · rw [if_pos hc, if_pos hc]
    · rw [if_neg hc, if_neg hc, writeAll_full 8 dst _ [] hw (by rw [leBytes_length]; omega) (by rw [leBytes_length]; omega)]
      rfl

theorem consume_zero {x : World} (h : x.tw.timer.count = 0) : { x with tw := x.tw.consume.1 } = x := by
  obtain ⟨⟨⟨a, b, c, d, e⟩, _, _, _, _⟩, _, _⟩ := x
  dsimp only [Timer.World.consume] at h ⊢
  rw [h]

/-- A refused read either changes nothing, or the memory was at fault: then the count is gone. -/
theorem readv_refused {x y : World} {offset : Bool} {dst : List (List Bool)} {out : List Nat} {z : Errno}
    (h : x.readv offset dst = (y, out, .error z)) :
    y = x ∨ (¬ Writable dst ∧ y = { x with tw := x.tw.consume.1 }) := by
  by_cases ho : offset = true
  · unfold World.readv at h
    rw [if_pos ho] at h
    exact .inl (Prod.mk.inj h).1.symm
  · have : offset = false := by simpa using ho
    subst this
    by_cases hw : Writable dst
    · rw [readv_writable x dst hw] at h
      split at h
      · exact .inl (Prod.mk.inj h).1.symm
      · split at h
        · rename_i hc
          rw [consume_zero hc] at h
          exact .inl (Prod.mk.inj h).1.symm
        · exact absurd (Prod.mk.inj (Prod.mk.inj h).2).2 (by simp)
    · unfold World.readv at h
      rw [if_neg (by decide)] at h
      split at h
      · exact .inl (Prod.mk.inj h).1.symm
      · dsimp only at h
        split at h
        · exact .inr ⟨hw, (Prod.mk.inj h).1.symm⟩
        · split at h
          · exact absurd (Prod.mk.inj (Prod.mk.inj h).2).2 (by simp)
          · exact .inr ⟨hw, (Prod.mk.inj h).1.symm⟩

/-- A successful read. -/
theorem readv_read {x y : World} {dst : List (List Bool)} {out : List Nat} (hw : Writable dst)
    (h : x.readv false dst = (y, out, .ok 8)) :
    0 < x.tw.timer.count ∧ y = World.refresh { x with tw := x.tw.consume.1 } ∧ out = leBytes x.tw.timer.count := by
  rw [readv_writable x dst hw] at h
  split at h
  · exact absurd (Prod.mk.inj (Prod.mk.inj h).2).2 (by simp)
  · split at h
    · exact absurd (Prod.mk.inj (Prod.mk.inj h).2).2 (by simp)
    · rename_i hc
      exact ⟨by omega, (Prod.mk.inj h).1.symm, (Prod.mk.inj (Prod.mk.inj h).2).1.symm⟩

theorem emu_add_le {a b c : Nat} (h : Emu.checkedAdd a b = some c) : c = a + b ∧ c ≤ emuMax := by
  have := Timer.emuMax_eq
  unfold Emu.checkedAdd U64.checkedAdd at h
  by_cases h1 : a + b ≤ u64Max
  · rw [if_pos h1] at h
    change Emu.fromC (a + b) = some c at h
    unfold Emu.fromC at h
    by_cases h2 : a + b = emuInvalid ∨ a + b > emuMax
    · rw [if_pos h2] at h; cases h
    · rw [if_neg h2] at h
      have := Option.some.inj h
      omega
  · rw [if_neg h1] at h; cases h

theorem timespec_fits {p : Int × Int} {a : Nat} (h : Sim.tryFromTimespec p.1 p.2 = some a) : Fits p ∧ a = nanos p := by
  rw [tryFromTimespec_exact] at h
  unfold Fits nanos
  omega

theorem fits_timespec {p : Int × Int} (h : Fits p) : Sim.tryFromTimespec p.1 p.2 = some (nanos p) := by
  rw [tryFromTimespec_exact]
  unfold Fits at h
  unfold nanos
  omega

theorem not_fits {p : Int × Int} (h : ¬ Fits p) : Sim.tryFromTimespec p.1 p.2 = none := by
  cases e : Sim.tryFromTimespec p.1 p.2 with
  | none => rfl
  | some a => exact absurd (timespec_fits e).1 h

/-- `settime` with values that are accepted. -/
theorem settime_fits (x : World) (abs : Bool) {v i : Int × Int} (hv : Fits v) (hi : Fits i) :
    x.settime abs v i =
      if nanos v = 0 then .ok (x.disarmTimer, true)
      else (R.unwrap (Emu.checkedAdd (if abs then 0 else x.tw.now) (nanos v))).bind (fun t =>
        (x.armTimer (max t x.tw.now) (if nanos i = 0 then none else some (nanos i))).bind (fun y => .ok (y, true))) := by
  unfold World.settime
  rw [fits_timespec hv, fits_timespec hi]
  dsimp only
  have : (if 0 < nanos i then some (nanos i) else none) = (if nanos i = 0 then none else some (nanos i)) := by
    by_cases h : nanos i = 0
    · rw [if_neg (by omega), if_pos h]
    · rw [if_pos (by omega), if_neg h]
  rw [this]
  rfl

/-- A successful `settime`: the timer was disarmed or armed, and the state refreshed. -/
theorem settime_ok {x y : World} {abs : Bool} {v i : Int × Int} (h : x.settime abs v i = .ok (y, true)) :
    Fits v ∧ Fits i ∧ ((setting x.tw.now abs v i = none ∧ y = World.refresh { x with tw := x.tw.disarm }) ∨
      ∃ e p tw, setting x.tw.now abs v i = some (e, p) ∧ e ≤ max emuMax x.tw.now ∧ (∀ q, p = some q → q = nanos i) ∧ x.tw.arm e p = .ok tw ∧
        y = World.refresh { x with tw := tw }) := by
  by_cases hv : Fits v
  · by_cases hi : Fits i
    · refine ⟨hv, hi, ?_⟩
      rw [settime_fits x abs hv hi] at h
      by_cases h0 : nanos v = 0
      · rw [if_pos h0] at h
        exact .inl ⟨if_pos h0, (Prod.mk.inj (R.ok.inj h)).1.symm⟩
      · rw [if_neg h0] at h
        right
        cases e1 : Emu.checkedAdd (if abs then 0 else x.tw.now) (nanos v) with
        | none => rw [e1] at h; cases h
        | some t =>
          rw [e1] at h
          obtain ⟨ht, hm⟩ := emu_add_le e1
          rw [R.unwrap_some] at h
          dsimp only [R.bind] at h
          unfold World.armTimer at h
          cases e2 : x.tw.arm (max t x.tw.now) (if nanos i = 0 then none else some (nanos i)) with
          | panic => rw [e2] at h; cases h
          | ok tw =>
            rw [e2] at h
            refine ⟨max t x.tw.now, if nanos i = 0 then none else some (nanos i), tw, ?_, by omega, ?_, e2, (Prod.mk.inj (R.ok.inj h)).1.symm⟩
            · rw [ht]; exact if_neg h0
            · intro q hq
              split at hq
              · cases hq
              · exact (Option.some.inj hq).symm
    · unfold World.settime at h
      rw [not_fits hi] at h
      split at h
      · rename_i _ _ _ hh; cases hh
      · exact absurd (Prod.mk.inj (R.ok.inj h)).2 (by simp)
  · unfold World.settime at h
    rw [not_fits hv] at h
    exact absurd (Prod.mk.inj (R.ok.inj h)).2 (by simp)

/-- The timer of a timer file descriptor has a history of its own. -/
theorem run_timer {late clean : Bool} {x : World} {g : Ghost} {got : List Nat} (h : Run late clean x g got) : Timer.Run late x.tw g := by
  induction h with
  | new h1 h2 h3 => exact .new h1 h2 h3
  | @settime x g got abs v i y _ hp hs ih =>
    obtain ⟨_, _, (⟨e1, e2⟩ | ⟨e, p, tw, e1, hm, hq, ha, e2⟩)⟩ := settime_ok hs
    · rw [e1, e2, refresh_tw]; exact .disarm ih
    · have hb := (Timer.run_inv ih).base.now_top
      rw [e1, e2, refresh_tw]
      refine .arm ih ?_ ?_ ha
      · generalize x.tw.now = n at *; omega
      · intro q hh; rw [hq q hh]; exact hp
  | read _ hw hr ih =>
    obtain ⟨_, e, _⟩ := readv_read hw hr
    rw [e, refresh_tw]
    exact .consume ih
  | @refused x g got offset dst y out z _ _ hr ih =>
    rcases readv_refused hr with e | ⟨_, e⟩
    · rw [e, Nat.sub_self]; exact ih
    · rw [e]; exact .consume ih
  | close _ ih => exact ih
  | @fire x g got ev y called _ hm hmin hf ih =>
    unfold World.fire at hf
    cases e : x.tw.fire ev with
    | panic => rw [e] at hf; cases hf
    | ok r =>
      rw [e] at hf
      obtain ⟨e1, e2⟩ := Prod.mk.inj (R.ok.inj hf)
      obtain ⟨tw, c⟩ := r
      dsimp only at e1 e2
      subst e2
      have : y.tw = tw := by
        rw [← e1]
        split
        · exact refresh_tw _
        · rfl
      rw [this]
      exact .fire ih hm hmin e
  | delay _ hl hm hmin hd ih => exact .delay ih hl hm hmin hd
  | other _ h1 h2 h3 ih => exact .other ih h1 h2 h3
  | tick _ h1 h2 ih => exact .tick ih h1 h2

theorem push_timer {x y : Timer.World} {ev : Ev} (h : x.push ev = .ok y) : y.timer = x.timer := by
  unfold Timer.World.push at h
  split at h
  · rw [← R.ok.inj h]
  · obtain ⟨_, _, h⟩ := R.bind_eq_ok.1 h
    rw [← R.ok.inj h]

theorem schedule_count {x y : Timer.World} (h : x.schedule = .ok y) : y.timer.count = x.timer.count := by
  unfold Timer.World.schedule at h
  obtain ⟨_, _, h⟩ := R.bind_eq_ok.1 h
  obtain ⟨_, _, h⟩ := R.bind_eq_ok.1 h
  obtain ⟨_, _, h⟩ := R.bind_eq_ok.1 h
  obtain ⟨_, _, h⟩ := R.bind_eq_ok.1 h
  obtain ⟨_, _, h⟩ := R.bind_eq_ok.1 h
  obtain ⟨_, _, h⟩ := R.bind_eq_ok.1 h
  rw [push_timer h]

theorem fire_silent {x y : Timer.World} {ev : Ev} (h : x.fire ev = .ok (y, false)) : y.timer.count = x.timer.count := by
  unfold Timer.World.fire at h
  obtain ⟨_, _, h⟩ := R.bind_eq_ok.1 h
  unfold Timer.World.expire at h
  split at h
  · rw [← (Prod.mk.inj (R.ok.inj h)).1]
  · obtain ⟨n, _, h⟩ := R.bind_eq_ok.1 h
    split at h
    · obtain ⟨z, hz, h⟩ := R.bind_eq_ok.1 h
      rw [← (Prod.mk.inj (R.ok.inj h)).1, schedule_count hz]
    · obtain ⟨z, _, h⟩ := R.bind_eq_ok.1 h
      cases (Prod.mk.inj (R.ok.inj h)).2

theorem delay_timer {x y : Timer.World} {ev : Ev} {d : Nat} (h : x.delay ev d = .ok y) : y.timer = x.timer := by
  unfold Timer.World.delay at h
  obtain ⟨_, _, h⟩ := R.bind_eq_ok.1 h
  obtain ⟨_, _, h⟩ := R.bind_eq_ok.1 h
  rw [push_timer h]

theorem arm_count {x y : Timer.World} {e : Nat} {i : Option Nat} (h : x.arm e i = .ok y) : y.timer.count = 0 := by
  unfold Timer.World.arm at h
  obtain ⟨_, _, h⟩ := R.bind_eq_ok.1 h
  obtain ⟨_, _, h⟩ := R.bind_eq_ok.1 h
  rw [schedule_count h]
  rfl

/-- A closed file is not readable, whatever else happens; without faults the flag agrees with the count. -/
theorem run_flag {late clean : Bool} {x : World} {g : Ghost} {got : List Nat} (h : Run late clean x g got) :
    (x.closed = true → x.readable = false) ∧ (clean = true → Agrees x) := by
  have key : ∀ {z : World}, (z.closed = true → z.readable = false) →
      (z.refresh.closed = true → z.refresh.readable = false) ∧ (clean = true → Agrees z.refresh) := by
    intro z hz
    refine ⟨fun hc => ?_, fun _ => refresh_agrees hz⟩
    have := refresh_agrees hz
    unfold Agrees at this
    rw [this, hc]
    rfl
  induction h with
  | new _ _ _ => exact ⟨fun hh => (by cases hh), fun _ => rfl⟩
  | settime _ _ hs ih =>
    obtain ⟨_, _, (⟨_, e2⟩ | ⟨_, _, _, _, _, _, _, e2⟩)⟩ := settime_ok hs
    · rw [e2]; exact key ih.1
    · rw [e2]; exact key ih.1
  | read _ hw hr ih =>
    obtain ⟨_, e, _⟩ := readv_read hw hr
    rw [e]; exact key ih.1
  | refused _ hc hr ih =>
    rcases readv_refused hr with e | ⟨hn, e⟩
    · rw [e]; exact ih
    · rw [e]
      exact ⟨ih.1, fun hh => absurd (hc hh) hn⟩
  | close _ ih => exact ⟨fun _ => rfl, fun _ => rfl⟩
  | @fire x g got ev y called _ hm hmin hf ih =>
    unfold World.fire at hf
    cases e : x.tw.fire ev with
    | panic => rw [e] at hf; cases hf
    | ok r =>
      rw [e] at hf
      obtain ⟨e1, e2⟩ := Prod.mk.inj (R.ok.inj hf)
      obtain ⟨tw, c⟩ := r
      dsimp only at e1 e2
      rw [← e1]
      cases c with
      | true => rw [if_pos rfl]; exact key ih.1
      | false =>
        rw [if_neg (by decide)]
        refine ⟨ih.1, fun hh => ?_⟩
        have := ih.2 hh
        unfold Agrees at this ⊢
        rw [show ({ x with tw := tw } : World).tw.timer.count = x.tw.timer.count from fire_silent e]
        exact this
  | @delay x g got ev d tw _ hl hm hmin hd ih =>
    refine ⟨ih.1, fun hh => ?_⟩
    have := ih.2 hh
    unfold Agrees at this ⊢
    rw [show ({ x with tw := tw } : World).tw.timer = x.tw.timer from delay_timer hd]
    exact this
  | other _ h1 h2 h3 ih => exact ih
  | tick _ h1 h2 ih => exact ih

/-! ## Theorems -/

/-- **C27** (readiness). In every history without memory faults, even with processor delays, an open timer file
    descriptor is readable exactly if its expiration count is not zero. A closed one is never readable. -/
theorem C27_readable {late clean : Bool} {x : World} {g : Ghost} {got : List Nat} (h : Run late clean x g got) :
    (clean = true → x.closed = false → (x.readable = true ↔ 0 < x.tw.timer.count)) ∧ (x.closed = true → x.readable = false) := by
  refine ⟨fun hc ho => ?_, (run_flag h).1⟩
  have := (run_flag h).2 hc
  unfold Agrees at this
  rw [this, ho]
  simp

/-- **C27** (reading). With room for eight bytes in writable memory: a read fails with `EAGAIN`, changing nothing,
    exactly if the count is zero; otherwise it gives the count as eight bytes, sets the count to zero and clears
    readability, and changes nothing else. With less room it fails with `EINVAL`, and with an offset with `ESPIPE`, changing nothing. -/
theorem C27_read {late : Bool} {x : World} {g : Ghost} {got : List Nat} (h : Run late true x g got) (dst : List (List Bool)) :
    x.readv true dst = (x, [], .error .espipe) ∧
    ((dst.map List.length).sum < 8 → x.readv false dst = (x, [], .error .einval)) ∧
    (Writable dst → 8 ≤ (dst.map List.length).sum →
      (x.tw.timer.count = 0 ∧ x.readv false dst = (x, [], .error .eagain)) ∨
      (0 < x.tw.timer.count ∧ ∃ y out, x.readv false dst = (y, out, .ok 8) ∧ out.length = 8 ∧ (∀ b ∈ out, b < 256) ∧
        (x.tw.timer.count < 2 ^ 64 → decode out = x.tw.timer.count) ∧
        y = ⟨{ x.tw with timer := { x.tw.timer with count := 0 } }, false, x.closed⟩)) := by
  refine ⟨?_, ?_, ?_⟩
  · unfold World.readv; rw [if_pos rfl]
  · intro h8; unfold World.readv; rw [if_neg (by decide), if_pos h8]
  · intro hw h8
    rw [readv_writable x dst hw, if_neg (by show ¬ (dst.map List.length).sum < 8; omega)]
    by_cases hc : x.tw.timer.count = 0
    · left
      rw [if_pos hc, consume_zero hc]
      exact ⟨hc, rfl⟩
    · right
      rw [if_neg hc]
      refine ⟨by omega, _, _, rfl, leBytes_length _, ?_, fun hl => decode_leBytes (by simpa using hl), ?_⟩
      · intro b hb
        unfold leBytes at hb
        obtain ⟨k, _, rfl⟩ := List.mem_map.1 hb
        exact Nat.mod_lt _ (by decide)
      · unfold World.refresh
        cases ho : x.closed with
        | false => rfl
        | true =>
          have := (run_flag h).1 ho
          rw [if_pos rfl, this]
          rfl

/-- **C27** (setting). `timerfd_settime` refuses times that do not fit, changing nothing. If it succeeds, what was
    not read is gone: the count is zero and the descriptor is not readable; and the setting is the one asked for,
    by which `C27_total` tells how often the timer expires. A zero value disarms. -/
theorem C27_settime {late clean : Bool} {x : World} {g : Ghost} {got : List Nat} (h : Run late clean x g got) (abs : Bool) (v i : Int × Int) :
    (¬ (Fits v ∧ Fits i) → x.settime abs v i = .ok (x, false)) ∧
    (∀ y ok, x.settime abs v i = .ok (y, ok) → ok = true →
      y.tw.timer.count = 0 ∧ y.readable = false ∧ y.closed = x.closed ∧ y.tw.now = x.tw.now ∧
      y.tw.timer.next = (setting x.tw.now abs v i).map Prod.fst ∧ y.tw.timer.interval = (setting x.tw.now abs v i).bind Prod.snd) := by
  refine ⟨fun hn => ?_, ?_⟩
  · unfold World.settime
    by_cases hv : Fits v
    · rw [not_fits (fun hi => hn ⟨hv, hi⟩)]
      split
      · rename_i _ _ _ hh; cases hh
      · rfl
    · rw [not_fits hv]
  · rintro y _ hs rfl
    have hcl := (run_flag h).1
    obtain ⟨_, _, (⟨e1, e2⟩ | ⟨e, p, tw, e1, _, _, ha, e2⟩)⟩ := settime_ok hs
    · have hag : Agrees y := by rw [e2]; exact refresh_agrees hcl
      have hc : y.tw.timer.count = 0 := by rw [e2, refresh_tw]; rfl
      refine ⟨hc, ?_, by rw [e2, refresh_closed], by rw [e2, refresh_tw]; rfl, ?_, ?_⟩
      · unfold Agrees at hag; rw [hag, hc]; simp
      · rw [e1, e2, refresh_tw]; rfl
      · rw [e1, e2, refresh_tw]; rfl
    · have hag : Agrees y := by rw [e2]; exact refresh_agrees hcl
      have hc : y.tw.timer.count = 0 := by rw [e2, refresh_tw]; exact arm_count ha
      have hok := Timer.arm_ok ha
      rw [Timer.arm_eq (Timer.run_inv (run_timer h)) hok.1 hok.2] at ha
      have ha := R.ok.inj ha
      refine ⟨hc, ?_, by rw [e2, refresh_closed], by rw [e2, refresh_tw, ← ha]; rfl, ?_, ?_⟩
      · unfold Agrees at hag; rw [hag, hc]; simp
      · rw [e1, e2, refresh_tw, ← ha]; rfl
      · rw [e1, e2, refresh_tw, ← ha]; rfl

theorem due_le (e : Nat) (i : Option Nat) (t : Nat) : due e i t ≤ t + 1 := by
  unfold due
  split
  · exact Nat.zero_le _
  · cases i with
    | none => exact Nat.succ_le_succ (Nat.zero_le _)
    | some p =>
      have := Nat.div_le_self (t - e) p
      show (t - e) / p + 1 ≤ t + 1
      omega

/-- The count of a timer fits in eight bytes. -/
theorem count_small {late : Bool} {x : Timer.World} {g : Ghost} (h : Timer.Run late x g) : x.timer.count < 18446744073709551616 := by
  cases hs : g.set with
  | none => rw [((Timer.C26_cancel h).1 hs).1]; decide
  | some p =>
    obtain ⟨e, i⟩ := p
    obtain ⟨h1, h2, _⟩ := Timer.C26_never_early h hs
    have h3 := due_le e i x.lastPop
    have hi := Timer.run_inv h
    have h4 := hi.order
    have h5 := hi.base.now_top
    have := Timer.emuMax_eq
    omega

/-- Without faults, everything consumed was read. -/
theorem run_got {late : Bool} {x : World} {g : Ghost} {got : List Nat} (h : Run late true x g got) : got.sum = g.taken := by
  induction h with
  | new _ _ _ => rfl
  | settime _ _ _ _ => rfl
  | @read x g got dst y out hr hw hh ih =>
    obtain ⟨_, _, e⟩ := readv_read hw hh
    rw [List.sum_append, ih, e, decode_leBytes (count_small (run_timer hr))]
    simp
  | @refused x g got offset dst y out z _ hc hr ih =>
    rcases readv_refused hr with e | ⟨hn, _⟩
    · rw [e, ih]; simp
    · exact absurd (hc rfl) hn
  | close _ ih => exact ih
  | fire _ _ _ _ ih => exact ih
  | delay _ _ _ _ _ ih => exact ih
  | other _ _ _ _ ih => exact ih
  | tick _ _ _ ih => exact ih

/-- **C27** (nothing lost). Without faults and processor delays: at every time up to which the host's events have
    been run, the sum of the values read since the timer was set, and the value that can be read now, is the
    number of times the timer was due. -/
theorem C27_total {x : World} {g : Ghost} {got : List Nat} (h : Run false true x g got) {e : Nat} {i : Option Nat} (hs : g.set = some (e, i))
    {t : Nat} (h1 : x.tw.lastPop ≤ t) (h2 : t < x.tw.endTime) (h3 : ∀ f ∈ x.tw.pending, t < f.time) :
    got.sum + x.tw.timer.count = due e i t := by
  rw [run_got h, Nat.add_comm]
  exact (Timer.C26_count (run_timer h) hs h1 h2 h3).1

/-- **C27** (never too many). Even with delays, the values read since the timer was set add up to at most the
    number of times it was due; while it is disarmed nothing can be read. -/
theorem C27_never_early {late : Bool} {x : World} {g : Ghost} {got : List Nat} (h : Run late true x g got) :
    (∀ e i, g.set = some (e, i) → got.sum + x.tw.timer.count ≤ due e i x.tw.lastPop) ∧
    (g.set = none → x.tw.timer.count = 0 ∧ x.readable = false) := by
  refine ⟨fun e i hs => ?_, fun hs => ?_⟩
  · obtain ⟨h1, h2, _⟩ := Timer.C26_never_early (run_timer h) hs
    rw [run_got h, Nat.add_comm, h1]
    exact h2
  · have hc := ((Timer.C26_cancel (run_timer h)).1 hs).1
    refine ⟨hc, ?_⟩
    have := (run_flag h).2 rfl
    unfold Agrees at this
    rw [this, hc]
    simp

/-- **C27** (no panic). `timerfd_settime` does not panic if the first expiration is a time at all, that is, at most
    about 584 years after 1970. (Values up to about 554 years are accepted, so that this is a restriction only for
    relative values, see `C27_overflow_panics`.) -/
theorem C27_settime_ok {late clean : Bool} {x : World} {g : Ghost} {got : List Nat} (h : Run late clean x g got) (abs : Bool) {v i : Int × Int}
    (hv : Fits v) (hi : Fits i) (hb : (if abs then 0 else x.tw.now) + nanos v ≤ emuMax) : ∃ y, x.settime abs v i = .ok (y, true) := by
  rw [settime_fits x abs hv hi]
  by_cases h0 : nanos v = 0
  · exact ⟨_, if_pos h0⟩
  · rw [if_neg h0, Timer.emu_add hb, R.unwrap_some]
    dsimp only [R.bind]
    unfold World.armTimer
    rw [Timer.arm_eq (Timer.run_inv (run_timer h)) (Nat.le_max_right _ _)]
    · exact ⟨_, rfl⟩
    · intro p hp
      split at hp
      · cases hp
      · rw [← Option.some.inj hp]; omega

theorem toTimespec_ok {a : Nat} (h : a ≤ emuMax) : Sim.toTimespec a = some (((a / 1000000000 : Nat) : Int), ((a % 1000000000 : Nat) : Int)) := by
  have := Timer.emuMax_eq
  unfold Sim.toTimespec
  rw [if_pos (by omega)]

theorem nanos_toTimespec (a : Nat) : nanos (((a / 1000000000 : Nat) : Int), ((a % 1000000000 : Nat) : Int)) = a := by
  unfold nanos
  omega

theorem gettime_eq {x : World} (h1 : x.tw.remaining.getD 0 ≤ emuMax) (h2 : x.tw.timer.interval.getD 0 ≤ emuMax) :
    ∃ v i, x.gettime = .ok (v, i) ∧ (0 ≤ v.2 ∧ v.2 < 1000000000) ∧ (0 ≤ i.2 ∧ i.2 < 1000000000) ∧
      nanos v = x.tw.remaining.getD 0 ∧ nanos i = x.tw.timer.interval.getD 0 := by
  unfold World.gettime
  generalize x.tw.remaining.getD 0 = a at *
  generalize x.tw.timer.interval.getD 0 = b at *
  rw [toTimespec_ok h1, toTimespec_ok h2]
  exact ⟨_, _, rfl, by dsimp only; omega, by dsimp only; omega, nanos_toTimespec _, nanos_toTimespec _⟩

theorem since_le (a b : Nat) : Emu.saturatingDurationSince a b ≤ emuMax := by
  have := Timer.emuMax_eq; have := Timer.simMax_eq
  unfold Emu.saturatingDurationSince Emu.checkedDurationSince U64.checkedSub
  by_cases h : b ≤ a
  · rw [if_pos h]
    show (Sim.fromC (a - b)).getD 0 ≤ emuMax
    unfold Sim.fromC
    split
    · exact Nat.zero_le _
    · split
      · exact Nat.zero_le _
      · rw [Option.getD_some]; omega
  · rw [if_neg h]; exact Nat.zero_le _

/-- **C27** (`timerfd_gettime`). Without processor delays and when the host's events have been run up to the current
    time: the call never panics, and reports the time to the next due time and the interval, each zero if there is none. -/
theorem C27_gettime {clean : Bool} {x : World} {g : Ghost} {got : List Nat} (h : Run false clean x g got)
    (h2 : x.tw.now < x.tw.endTime) (h3 : ∀ f ∈ x.tw.pending, x.tw.now < f.time) :
    ∃ v i, x.gettime = .ok (v, i) ∧ (0 ≤ v.2 ∧ v.2 < 1000000000) ∧ (0 ≤ i.2 ∧ i.2 < 1000000000) ∧
      match g.set with
      | none => nanos v = 0 ∧ nanos i = 0
      | some (e, p) => nanos i = p.getD 0 ∧
        nanos v = if p = none ∧ e ≤ x.tw.now then 0 else dueAt e p (due e p x.tw.now) - x.tw.now := by
  have hr := run_timer h
  have hi := Timer.run_inv hr
  have hrem : x.tw.remaining.getD 0 ≤ emuMax := by
    unfold Timer.World.remaining
    cases x.tw.timer.next with
    | none => exact Nat.zero_le _
    | some n => exact since_le _ _
  have hint : x.tw.timer.interval.getD 0 ≤ emuMax := by
    cases hs : g.set with
    | none => rw [(hi.unset hs).2.1]; exact Nat.zero_le _
    | some q =>
      obtain ⟨e, p⟩ := q
      obtain ⟨a1, _, _, a4, _⟩ := hi.armed e p hs
      rw [a1]
      cases p with
      | none => exact Nat.zero_le _
      | some p => exact Nat.le_trans (Nat.le_add_left _ _) (a4 p rfl).2
  obtain ⟨v, i, e1, e2, e3, e4, e5⟩ := gettime_eq hrem hint
  refine ⟨v, i, e1, e2, e3, ?_⟩
  cases hs : g.set with
  | none =>
    have := hi.unset hs
    rw [e4, e5, this.2.1]
    unfold Timer.World.remaining
    rw [this.1]
    exact ⟨rfl, rfl⟩
  | some q =>
    obtain ⟨e, p⟩ := q
    obtain ⟨a1, _⟩ := hi.armed e p hs
    dsimp only
    rw [e4, e5, a1, Timer.C26_remaining hr hs h2 h3]
    refine ⟨rfl, ?_⟩
    split <;> rfl

/-! ## Executions -/

inductive Op where
  | settime (abs : Bool) (v i : Int × Int)
  | read (dst : List (List Bool))
  | fire (ev : Ev)

/-- Runs the operations, if they are possible; the second value are the values read since the timer was set. -/
def exec (x : World) (got : List Nat) : List Op → Option (World × List Nat)
  | [] => some (x, got)
  | .settime abs v i :: ops =>
    if x.tw.endTime + nanos i ≤ emuMax then match x.settime abs v i with
      | .ok (y, true) => exec y [] ops
      | _ => none
    else none
  | .read dst :: ops =>
    if dst.all (fun s => s.all id) then match x.readv false dst with
      | (y, out, .ok 8) => exec y (got ++ [decode out]) ops
      | _ => none
    else none
  | .fire ev :: ops =>
    if x.tw.first ev then match x.fire ev with
      | .ok (y, _) => exec y got ops
      | .panic => none
    else none

theorem exec_run (ops : List Op) : ∀ {x y : World} {got got' : List Nat} {g : Ghost}, Run false true x g got →
    exec x got ops = some (y, got') → ∃ g', Run false true y g' got' := by
  induction ops with
  | nil => intro x y got got' g h e; cases e; exact ⟨g, h⟩
  | cons o ops ih =>
    intro x y got got' g h e
    cases o with
    | settime abs v i =>
      unfold exec at e
      split at e
      · rename_i hc
        split at e
        · rename_i hs; exact ih (h.settime hc hs) e
        · cases e
      · cases e
    | read dst =>
      unfold exec at e
      split at e
      · rename_i hc
        split at e
        · rename_i hs
          refine ih (h.read ?_ hs) e
          intro s hs b hb
          exact List.all_eq_true.1 (List.all_eq_true.1 hc s hs) b hb
        · cases e
      · cases e
    | fire ev =>
      unfold exec at e
      split at e
      · rename_i hc
        split at e
        · rename_i hs
          exact ih (h.fire (Timer.first_spec hc).1 (Timer.first_spec hc).2 hs) e
        · cases e
      · cases e

def zero (endTime : Nat) : World := World.new (Timer.zero endTime)

theorem zero_run {endTime : Nat} (h : endTime ≤ 1000000000000) : Run false true (zero endTime) ⟨none, 0, []⟩ [] := by
  have := Timer.simStart_eq; have := Timer.emuMax_eq
  refine .new (Nat.le_refl _) (Nat.add_le_add_left (Nat.zero_le _) _) ?_
  unfold Timer.at_
  omega

def buf (n : Nat) : List (List Bool) := [List.replicate n true]

/-- A timer first due after 3 s, then every 2 s: it is read once after the first expiration, and has then expired twice more. -/
def script : List Op := [.settime false (3, 0) (2, 0), .fire ⟨Timer.at_ 2000000000, 0⟩, .fire ⟨Timer.at_ 3000000000, 1⟩, .read (buf 10),
  .fire ⟨Timer.at_ 5000000000, 2⟩, .fire ⟨Timer.at_ 7000000000, 3⟩]

structure View where
  readable : Bool
  count : Nat
  got : List Nat
  pending : List Nat
deriving DecidableEq, Repr

def view (r : Option (World × List Nat)) : Option View :=
  r.map (fun p => ⟨p.1.readable, p.1.tw.timer.count, p.2, p.1.tw.pending.map (·.time - simStart)⟩)

example : view (exec (zero 100000000000) [] script) = some ⟨true, 2, [1], [9000000000]⟩ := by decide +kernel
example : view (exec (zero 100000000000) [] (script ++ [.read (buf 8)])) = some ⟨false, 0, [1, 2], [9000000000]⟩ := by decide +kernel
example : view (exec (zero 100000000000) [] (script ++ [.settime false (0, 0) (1, 0)])) = some ⟨false, 0, [], [9000000000]⟩ := by decide +kernel

/-- The world of the script. -/
theorem script_run : ∃ x g, Run false true x g [1] ∧ x.readable = true ∧ x.tw.timer.count = 2 ∧
    (x.readv false [[false]] = (x, [], .error .einval)) ∧
    (x.readv false [List.replicate 8 false]).1.tw.timer.count = 0 ∧ (x.readv false [List.replicate 8 false]).1.readable = true ∧
    (x.readv false [List.replicate 8 false]).2.1 = [] := by
  cases h : exec (zero 100000000000) [] script with
  | none =>
    have hv : (exec (zero 100000000000) [] script).isSome = true := by decide +kernel
    rw [h] at hv; cases hv
  | some p =>
    obtain ⟨y, l⟩ := p
    obtain ⟨g, hr⟩ := exec_run _ (zero_run (by decide)) h
    have hv : (exec (zero 100000000000) [] script).map (fun p => (p.2, p.1.readable, p.1.tw.timer.count,
      (p.1.readv false [List.replicate 8 false]).1.tw.timer.count, (p.1.readv false [List.replicate 8 false]).1.readable,
      (p.1.readv false [List.replicate 8 false]).2.1)) = some ([1], true, 2, 0, true, []) := by decide +kernel
    rw [h] at hv
    have hv := Option.some.inj hv
    dsimp only at hv
    obtain ⟨e1, hv⟩ := Prod.mk.inj hv
    obtain ⟨e2, hv⟩ := Prod.mk.inj hv
    obtain ⟨e3, hv⟩ := Prod.mk.inj hv
    obtain ⟨e4, hv⟩ := Prod.mk.inj hv
    obtain ⟨e5, e6⟩ := Prod.mk.inj hv
    rw [e1] at hr
    exact ⟨y, g, hr, e2, e3, rfl, e4, e5, e6⟩

/-- **C27**, what does not hold (memory faults). A read into memory that cannot be written loses the expirations, and
    leaves the descriptor marked as readable though there is nothing to read. -/
theorem C27_fault_loses : ∃ x g dst y, Run false true x g [1] ∧ 0 < x.tw.timer.count ∧ x.readv false dst = (y, [], .error .efault) ∧
    y.tw.timer.count = 0 ∧ y.readable = true := by
  obtain ⟨x, g, hr, h1, h2, _, h4, h5, _⟩ := script_run
  refine ⟨x, g, [List.replicate 8 false], (x.readv false [List.replicate 8 false]).1, hr, by omega, ?_, h4, h5⟩
  unfold World.readv
  rw [if_neg (by decide), if_neg (by decide)]
  dsimp only
  rw [if_neg (by show ¬ x.tw.timer.count = 0; omega)]
  rw [show x.tw.consume.2 = 2 from h2]
  rfl

/-- **C27**, what does not hold (overflow). A relative value that is accepted but whose time is after the last
    possible time makes `timerfd_settime` panic. -/
theorem C27_overflow_panics : ∃ x g v i, Run false true x g [] ∧ Fits v ∧ Fits i ∧ x.settime false v i = .panic :=
  ⟨{ zero 100000000000 with tw := (zero 100000000000).tw.tick (Timer.at_ 1) }, _, (17500059273, 709551614), (0, 0),
    .tick (t := Timer.at_ 1) (zero_run (by decide)) (by decide +kernel) (by decide +kernel),
    by unfold Fits; decide, by unfold Fits; decide, by decide +kernel⟩

end Shadow.TimerFd
