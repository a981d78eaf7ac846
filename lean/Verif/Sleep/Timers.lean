import Verif.Sleep.Props
/-!
# C73: the timer of a process
-/
namespace Shadow.Sleep

open Shadow.Base
open Shadow.Time
open Shadow.Timer (World Ghost dueAt due)

/-! ## What the calls should do -/

/-- A time of a program in seconds and microseconds. -/
def GoodV (q : Int × Int) : Prop :=
  0 ≤ q.1 ∧ 0 ≤ q.2 ∧ q.2 < 1000000 ∧ q.1 * 1000000000 + q.2 * 1000 ≤ 17500059273709551614

instance (q) : Decidable (GoodV q) := by unfold GoodV; infer_instance

/-- Its nanoseconds. -/
def nsV (q : Int × Int) : Nat := (q.1 * 1000000000 + q.2 * 1000).toNat

/-- `q` is `n` nanoseconds, rounded down to microseconds. -/
def Shows (n : Nat) (q : Int × Int) : Prop :=
  0 ≤ q.1 ∧ 0 ≤ q.2 ∧ q.2 < 1000000 ∧ q.1 * 1000000000 + q.2 * 1000 ≤ n ∧ n < q.1 * 1000000000 + q.2 * 1000 + 1000

theorem goodV_some {q : Int × Int} (h : GoodV q) : Sim.tryFromTimeval q.1 q.2 = some (nsV q) := by
  unfold GoodV at h
  unfold Sim.tryFromTimeval Sim.tryFromDuration nsV
  rw [Time.simMax_eq, if_neg (by omega), if_neg (by omega)]
  congr 1
  omega

theorem not_goodV {q : Int × Int} (h : ¬ GoodV q) : Sim.tryFromTimeval q.1 q.2 = none := by
  unfold Sim.tryFromTimeval Sim.tryFromDuration
  rw [Time.simMax_eq]
  split
  · rfl
  · rw [if_pos]
    unfold GoodV at h
    omega

theorem nsV_max {q : Int × Int} (h : GoodV q) : nsV q ≤ 17500059273709551614 := by
  unfold GoodV at h; unfold nsV; omega

theorem toTimeval_shows {n : Nat} (h : n ≤ 18446744073709551614) : ∃ q, Sim.toTimeval n = some q ∧ Shows n q := by
  unfold Sim.toTimeval
  rw [if_pos (by omega)]
  refine ⟨_, rfl, ?_⟩
  unfold Shows
  simp only
  omega

/-! ## The calls -/

variable {x : World} {g : Ghost}

theorem remaining_le (x : World) : x.remaining.getD 0 ≤ 17500059273709551614 := by
  unfold World.remaining
  cases x.timer.next with
  | none => simp
  | some t =>
    simp only [Option.map_some, Option.getD_some]
    unfold Emu.saturatingDurationSince
    rw [emu_checkedDurationSince_exact]
    split
    · rename_i h; simpa using h.2
    · simp

theorem interval_le (h : Timer.Run false x g) : x.timer.interval.getD 0 ≤ 18446744073709551614 := by
  have hi := Timer.run_inv h
  cases hg : g.set with
  | none => rw [(hi.unset hg).2.1]; simp
  | some p =>
    obtain ⟨e, i⟩ := p
    obtain ⟨h1, _, _, h4, _⟩ := hi.armed e i hg
    rw [h1]
    cases i with
    | none => simp
    | some p =>
      have := (h4 p rfl).2
      rw [Time.emuMax_eq] at this
      simp only [Option.getD_some]; omega

theorem report_spec (h : Timer.Run false x g) : ∃ v, report x = .ok v ∧ Shows (x.timer.interval.getD 0) v.interval ∧ Shows (x.remaining.getD 0) v.value := by
  obtain ⟨a, ha, ha'⟩ := toTimeval_shows (interval_le h)
  obtain ⟨b, hb, hb'⟩ := toTimeval_shows (Nat.le_trans (remaining_le x) (by omega))
  refine ⟨⟨a, b⟩, ?_, ha', hb'⟩
  unfold report
  rw [ha, hb]; rfl

/-- **C73, `getitimer`.**  At a time up to which the events of the host have been run: the interval that was set, and the time to the next expiration, both
rounded down to microseconds; zeros if the timer is not set or has expired.  Other timers are refused. -/
theorem C73_getitimer (h : Timer.Run false x g) (h2 : x.now < x.endTime) (h3 : ∀ f ∈ x.pending, x.now < f.time) :
    (∀ which, which ≠ 0 → getitimer x which = .ok (.error EINVAL)) ∧ ∃ v, getitimer x 0 = .ok (.ok v) ∧
      (g.set = none → v = ⟨(0, 0), (0, 0)⟩) ∧
      (∀ e i, g.set = some (e, i) → Shows (i.getD 0) v.interval ∧
        Shows (if i = none ∧ e ≤ x.now then 0 else dueAt e i (due e i x.now) - x.now) v.value) := by
  obtain ⟨v, hv, h4, h5⟩ := report_spec h
  have hi := Timer.run_inv h
  refine ⟨fun w hw => by unfold getitimer; rw [if_neg hw], v, by unfold getitimer; rw [if_pos rfl, hv]; rfl, fun hg => ?_, fun e i hg => ?_⟩
  · obtain ⟨u1, u2, _⟩ := hi.unset hg
    have hr : x.remaining = none := by unfold World.remaining; rw [u1]; rfl
    rw [u2] at h4
    rw [hr] at h5
    have z : ∀ q : Int × Int, Shows 0 q → q = (0, 0) := by
      rintro ⟨a, b⟩ hq
      unfold Shows at hq
      simp only at hq
      rw [Prod.mk.injEq]; omega
    obtain ⟨a, b⟩ := v
    rw [z a h4, z b h5]
  · have hr := Timer.C26_remaining h hg h2 h3
    obtain ⟨h1, _⟩ := hi.armed e i hg
    refine ⟨by rw [← h1]; exact h4, ?_⟩
    rw [hr] at h5
    split at h5 <;> rename_i hc
    · rw [if_pos hc]; exact h5
    · rw [if_neg hc]; exact h5

/-- **C73, `setitimer`.**  Bad times and other timers are refused, and the timer stays as it is.  A value of zero stops the timer; another value sets it to expire
this much later, and then again after each interval if that is not zero, whatever it was set to before (when it expires is C26).  The old value is what
`getitimer` would have said. -/
theorem C73_setitimer (h : Timer.Run false x g) (which : Int) (new : ITimer) (old : Bool) :
    (¬ (which = 0 ∧ GoodV new.value ∧ GoodV new.interval) →
      ∃ o, setitimer x which new old false = .ok ⟨x, o, 22⟩) ∧
    (which = 0 → GoodV new.value → GoodV new.interval →
      (nsV new.value ≠ 0 → x.now + nsV new.value ≤ 18446744073709551614 ∧ x.endTime + nsV new.interval ≤ 18446744073709551614) →
      ∃ r, setitimer x which new old false = .ok r ∧ r.errno = 0 ∧
        (if old then ∃ v, r.old = some v ∧ getitimer x 0 = .ok (.ok v) else r.old = none) ∧
        (nsV new.value = 0 → Timer.Run false r.world ⟨none, 0, []⟩) ∧
        (nsV new.value ≠ 0 → Timer.Run false r.world
          ⟨some (x.now + nsV new.value, if nsV new.interval = 0 then none else some (nsV new.interval)), 0, []⟩)) := by
  obtain ⟨v, hv, _⟩ := report_spec h
  have hget : getitimer x 0 = .ok (.ok v) := by unfold getitimer; rw [if_pos rfl, hv]; rfl
  have hbefore : (if old then do
      let v ← report x
      .ok (some v) else .ok none : R (Option ITimer)) = .ok (if old then some v else none) := by
    cases old
    · rfl
    · rw [hv]; rfl
  constructor
  · intro hb
    unfold setitimer
    by_cases hw : which = 0
    · rw [if_pos hw, hbefore]
      simp only [R.bind_ok, Bool.false_eq_true, if_false]
      by_cases h1 : GoodV new.value
      · have h2 : ¬ GoodV new.interval := fun h2 => hb ⟨hw, h1, h2⟩
        rw [goodV_some h1, not_goodV h2]
        exact ⟨_, rfl⟩
      · rw [not_goodV h1]
        exact ⟨_, rfl⟩
    · rw [if_neg hw]
      exact ⟨_, rfl⟩
  · intro hw h1 h2 hmax
    unfold setitimer
    rw [if_pos hw, hbefore]
    simp only [R.bind_ok, Bool.false_eq_true, if_false]
    rw [goodV_some h1, goodV_some h2]
    simp only
    have hold : ∀ r : Set, r.old = (if old then some v else none) →
        (if old then ∃ v, r.old = some v ∧ getitimer x 0 = .ok (.ok v) else r.old = none) := by
      intro r hr
      cases old
      · exact hr
      · exact ⟨v, hr, hget⟩
    by_cases h0 : nsV new.value = 0
    · rw [if_pos h0]
      exact ⟨_, rfl, rfl, hold _ rfl, fun _ => h.disarm, fun hn => absurd h0 hn⟩
    · rw [if_neg h0, emu_checkedAdd_exact, if_pos (hmax h0).1]
      simp only [R.unwrap_some, R.bind_ok]
      have hp : ∀ p, (if 0 < nsV new.interval then some (nsV new.interval) else none) = some p → 0 < p := by
        intro p hp
        split at hp
        · cases hp; assumption
        · cases hp
      have ha := Timer.arm_eq (Timer.run_inv h) (e := x.now + nsV new.value) (by omega) hp
      rw [ha]
      refine ⟨_, rfl, rfl, hold _ rfl, fun hn => absurd hn h0, fun _ => ?_⟩
      have heq : (if nsV new.interval = 0 then none else some (nsV new.interval)) =
          (if 0 < nsV new.interval then some (nsV new.interval) else none) := by
        by_cases hz : nsV new.interval = 0
        · rw [if_pos hz, if_neg (by omega)]
        · rw [if_neg hz, if_pos (by omega)]
      rw [heq]
      refine h.arm (by rw [Time.emuMax_eq]; exact (hmax h0).1) (fun p hp' => ?_) ha
      split at hp'
      · cases hp'; rw [Time.emuMax_eq]; exact (hmax h0).2
      · cases hp'

theorem alarmSecs_spec (r : Option Nat) : (r = none → alarmSecs r = 0) ∧ (∀ t, r = some t → t < 4294967295000000000 →
    0 < alarmSecs r ∧ t < alarmSecs r * 1000000000 + 501000000 ∧ (alarmSecs r = 1 ∨ alarmSecs r * 1000000000 ≤ t + 499000000)) := by
  constructor
  · intro e; rw [e]; rfl
  · intro t e ht
    rw [e]
    simp only [alarmSecs]
    generalize hk : t / 1000000000 = k
    generalize hm : t % 1000000000 = m
    have h1 : t = k * 1000000000 + m := by omega
    have h2 : m < 1000000000 := by omega
    split
    · rw [if_pos (by omega)]; omega
    · split
      · rw [if_pos (by omega)]; omega
      · rw [if_pos (by omega)]; omega

theorem fromSecs {n : Nat} (h : n ≤ 4294967295) : Sim.tryFromSecs n = some (n * 1000000000) := by
  unfold Sim.tryFromSecs
  rw [checkedMul_exact]
  have e : oneSecond * n = n * 1000000000 := by rw [Nat.mul_comm]; rfl
  rw [e, if_pos (by omega)]

theorem alarm_eq (h : Timer.Run false x g) {seconds d : Nat} (hd : Sim.tryFromSecs seconds = some d) (hm : x.now + d ≤ 18446744073709551614) :
    ∃ y, alarm x seconds = .ok (y, alarmSecs x.remaining) ∧
      (seconds = 0 → Timer.Run false y ⟨none, 0, []⟩) ∧
      (seconds ≠ 0 → Timer.Run false y ⟨some (x.now + d, none), 0, []⟩) := by
  unfold alarm
  by_cases h0 : seconds = 0
  · simp only [if_pos h0]
    exact ⟨_, rfl, fun _ => h.disarm, fun hn => absurd h0 hn⟩
  · simp only [if_neg h0]
    rw [hd]
    simp only [R.unwrap_some, R.bind_ok]
    rw [emu_checkedAdd_exact, if_pos hm]
    simp only [R.unwrap_some, R.bind_ok]
    have ha := Timer.arm_eq (Timer.run_inv h) (e := x.now + d) (i := none) (by omega) (fun p hp => by cases hp)
    rw [ha, R.bind_ok]
    have hrun := h.arm (by rw [Time.emuMax_eq]; exact hm) (fun p hp => by cases hp) ha
    exact ⟨_, rfl, fun hn => absurd hn h0, fun _ => hrun⟩

/-- **C73, `alarm`.**  It sets the timer to expire once after this many seconds, or stops it for zero.  The result is zero exactly if no alarm was set, and
otherwise the seconds to the old one, rounded to the nearest with at least one (below 2^32 seconds; half a second is rounded down). -/
theorem C73_alarm (h : Timer.Run false x g) (seconds : Nat) (hm : x.now + seconds * 1000000000 ≤ 18446744073709551614)
    (hs : seconds ≤ 4294967295) :
    ∃ y p, alarm x seconds = .ok (y, p) ∧
      (seconds = 0 → Timer.Run false y ⟨none, 0, []⟩) ∧
      (seconds ≠ 0 → Timer.Run false y ⟨some (x.now + seconds * 1000000000, none), 0, []⟩) ∧
      (x.remaining = none → p = 0) ∧
      (∀ t, x.remaining = some t → t < 4294967295000000000 →
        0 < p ∧ t < p * 1000000000 + 501000000 ∧ (p = 1 ∨ p * 1000000000 ≤ t + 499000000)) := by
  have hp := alarmSecs_spec x.remaining
  obtain ⟨y, h1, h2, h3⟩ := alarm_eq h (fromSecs hs) hm
  exact ⟨y, _, h1, h2, h3, hp⟩

end Shadow.Sleep
