import Verif.Cpu.Model
import Verif.TokenBucket.Props

/-!
# C10: the CPU model
-/
namespace Shadow.Cpu

open Shadow.Time

/-- Specification of the scaling: native nanoseconds to simulated nanoseconds, rounded down. -/
def scaled (c : Cpu) (nanos : Nat) : Nat := nanos * c.natFreq / c.simFreq

theorem sim_fromC_eq {v r : Nat} (h : Sim.fromC v = some r) : r = v ∧ v ≤ simMax := by
  unfold Sim.fromC at h
  split at h
  · simp at h
  · split at h
    · simp at h
    · simp at h; omega

theorem checkedMul_one {d r : Nat} (h : Sim.tryFromNanos d = some r) : r = d ∧ d ≤ simMax := by
  unfold Sim.tryFromNanos Sim.checkedMul U64.checkedMul at h
  split at h
  · next s hs =>
    split at hs
    · simp at hs
      obtain ⟨h1, h2⟩ := sim_fromC_eq h
      omega
    · simp at hs
  · simp at h

/-- What the rounding step computes. -/
theorem roundTo_spec (p d r : Nat) (h : roundTo (some p) d = some r) :
    0 < p ∧ r = (if d % p ≥ p / 2 then d - d % p + p else d - d % p) := by
  unfold roundTo at h
  simp only [Option.bind_eq_bind] at h
  obtain ⟨rem, h1, h⟩ := Option.bind_eq_some_iff.mp h
  obtain ⟨down, h2, h⟩ := Option.bind_eq_some_iff.mp h
  obtain ⟨half, h3, h⟩ := Option.bind_eq_some_iff.mp h
  have e1 : 0 < p ∧ rem = d % p := by
    unfold Sim.checkedRem U64.checkedRem at h1
    split at h1
    · next s hs =>
      split at hs
      · simp at hs
      · simp at hs; have := (sim_fromC_eq h1).1; omega
    · simp at h1
  have e2 : down = d - rem := by
    unfold Sim.checkedSub U64.checkedSub at h2
    split at h2
    · next s hs =>
      split at hs
      · simp at hs; have := (sim_fromC_eq h2).1; omega
      · simp at hs
    · simp at h2
  have e3 : half = p / 2 := by
    unfold Sim.checkedDiv U64.checkedDiv at h3
    simp at h3; exact (sim_fromC_eq h3).1
  refine ⟨e1.1, ?_⟩
  rw [← e1.2, ← e3, ← e2]
  split at h
  · next hc =>
    rw [if_pos hc]
    unfold Sim.checkedAdd U64.checkedAdd at h
    split at h
    · next s hs =>
      split at hs
      · simp at hs; have := (sim_fromC_eq h).1; omega
      · simp at hs
    · simp at h
  · next hc => rw [if_neg hc]; simp at h; exact h.symm

/-- **C10 (rounding).** The rounded delay is a multiple of the precision and differs from the exact
    one by at most half a step, rounded up to whole nanoseconds; for an even precision it is the
    nearest multiple, with ties going up. -/
theorem C10_rounding (p d r : Nat) (h : roundTo (some p) d = some r) :
    p ∣ r ∧ 2 * r ≤ 2 * d + p + 1 ∧ 2 * d ≤ 2 * r + p ∧
    (p % 2 = 0 → 2 * r ≤ 2 * d + p ∧ 2 * d < 2 * r + p) := by
  obtain ⟨hp, hr⟩ := roundTo_spec p d r h
  have hdm := Nat.div_add_mod d p
  have hlt := Nat.mod_lt d hp
  have hdown : d - d % p = p * (d / p) := by omega
  constructor
  · rw [hr, hdown]
    split
    · exact Nat.dvd_add (Nat.dvd_mul_right _ _) (Nat.dvd_refl _)
    · exact Nat.dvd_mul_right _ _
  · generalize d % p = m at *
    split at hr
    · refine ⟨by omega, by omega, fun h2 => by omega⟩
    · refine ⟨by omega, by omega, fun h2 => by omega⟩

/-- The rounding is *not* to the nearest step for an odd precision: with precision 1 (where nothing
    needs rounding) every delay is increased by one, including a delay of zero. -/
theorem C10_rounding_precision_one (d r : Nat) (h : roundTo (some 1) d = some r) : r = d + 1 := by
  obtain ⟨-, hr⟩ := roundTo_spec 1 d r h
  simp [Nat.mod_one] at hr; omega

/-- ... and with precision 3 one nanosecond becomes three. -/
theorem C10_rounding_not_nearest : roundTo (some 3) 1 = some 3 := by decide

/-- **C10 (accounting).** `add_delay` moves the CPU's availability forward by exactly the scaled and
    rounded native time and changes nothing else. -/
theorem C10_addDelay (c c' : Cpu) (n : Nat) (h : c.addDelay n = some c') :
    ∃ r, roundTo c.precision (scaled c n) = some r ∧ c' = { c with avail := c.avail + r } ∧
      c.avail + r ≤ emuMax := by
  unfold Cpu.addDelay at h
  simp only [Option.bind_eq_bind] at h
  split at h
  · simp at h
  split at h
  · simp at h
  try simp only [Option.bind_some] at h
  split at h
  · simp at h
  try simp only [Option.bind_some] at h
  obtain ⟨d, h1, h⟩ := Option.bind_eq_some_iff.mp h
  obtain ⟨r, h2, h⟩ := Option.bind_eq_some_iff.mp h
  obtain ⟨a, h3, h⟩ := Option.bind_eq_some_iff.mp h
  have hd := (checkedMul_one h1).1
  simp at h
  have ha : a = c.avail + r ∧ a ≤ emuMax := by
    unfold Emu.checkedAdd U64.checkedAdd at h3
    split at h3
    · next s hs =>
      split at hs
      · simp at hs
        unfold Emu.fromC at h3
        split at h3
        · simp at h3
        · simp at h3; omega
      · simp at hs
    · simp at h3
  refine ⟨r, ?_, ?_, by omega⟩
  · unfold scaled; rw [← hd]; exact h2
  · rw [← h, ha.1]

/-- **C10 (monotone).** Along every history the availability time never decreases. -/
theorem C10_monotone (c c' : Cpu) (ops : List Op) (h : c.run ops = some c') :
    c.avail ≤ c'.avail ∧ c'.threshold = c.threshold ∧ c'.precision = c.precision ∧
      c'.simFreq = c.simFreq ∧ c'.natFreq = c.natFreq := by
  induction ops generalizing c with
  | nil => simp [Cpu.run] at h; subst h; simp
  | cons o os ih =>
    simp only [Cpu.run] at h
    obtain ⟨c1, h1, h2⟩ := Option.bind_eq_some_iff.mp h
    obtain ⟨g1, g2, g3, g4, g5⟩ := ih c1 h2
    cases o with
    | updateTime t =>
      simp [Cpu.step, Cpu.updateTime] at h1
      subst h1
      exact ⟨g1, g2, g3, g4, g5⟩
    | addDelay n =>
      obtain ⟨r, -, rfl, -⟩ := C10_addDelay c c1 n h1
      simp at g1 g2 g3 g4 g5
      exact ⟨by omega, g2, g3, g4, g5⟩

/-- **C10 (delay).** For representable times the reported delay is zero without threshold;
    otherwise it is the time until the CPU is free if that exceeds the threshold, else zero. -/
theorem C10_delay (c : Cpu) (hnow : c.avail ≤ c.now + simMax) :
    (c.threshold = none → c.delay = 0) ∧
    (∀ th, c.threshold = some th →
      c.delay = if c.avail - c.now > th then c.avail - c.now else 0) := by
  unfold Cpu.delay
  constructor
  · intro h; simp [h]
  · intro th h
    simp only [h]
    by_cases hle : c.now ≤ c.avail
    · have hd := TB.durationSince_some hle (by omega)
      unfold Emu.durationSince at hd
      rw [hd]
    · have : Emu.checkedDurationSince c.avail c.now = none := by
        simp [Emu.checkedDurationSince, U64.checkedSub, hle]
      rw [this]
      have : c.avail - c.now = 0 := by omega
      simp [this]

/-- The delay is zero or above the threshold, whatever the times. -/
theorem C10_delay_above_threshold (c : Cpu) :
    c.delay = 0 ∨ ∃ th, c.threshold = some th ∧ th < c.delay ∧ c.now + c.delay = c.avail := by
  unfold Cpu.delay
  split
  · exact .inl rfl
  · next th hth =>
    split
    · exact .inl rfl
    · next built hb =>
      split
      · next hgt =>
        refine .inr ⟨th, by first | rfl | assumption, hgt, ?_⟩
        unfold Emu.checkedDurationSince U64.checkedSub at hb
        split at hb
        · next s hs =>
          split at hs
          · simp at hs; have := (sim_fromC_eq hb).1; omega
          · simp at hs
        · simp at hb
      · exact .inl rfl

/-- **C10 (retry).** An event postponed by the reported delay finds no delay when retried at the
    postponed time. -/
theorem C10_retry_no_delay (c : Cpu) (hd : 0 < c.delay) :
    (c.updateTime (c.now + c.delay)).delay = 0 := by
  rcases C10_delay_above_threshold c with h | ⟨th, hth, -, hav⟩
  · omega
  · rw [hav]
    have h2 := (C10_delay (c.updateTime c.avail) (by simp [Cpu.updateTime])).2 th
      (by simpa [Cpu.updateTime] using hth)
    rw [h2]; simp [Cpu.updateTime]

/-- Total simulated time charged in a history. -/
def charged (c : Cpu) : List Op → Option Nat
  | [] => some 0
  | .updateTime _ :: os => charged c os
  | .addDelay n :: os => do
    let r ← roundTo c.precision (scaled c n)
    let s ← charged c os
    some (r + s)

/-- Exact accounting over a whole history: the availability is the initial one plus everything
    charged; in particular it never depends on when the work was done. -/
theorem C10_avail_total (c c' : Cpu) (ops : List Op) (h : c.run ops = some c') :
    ∃ s, charged c ops = some s ∧ c'.avail = c.avail + s := by
  induction ops generalizing c with
  | nil => simp [Cpu.run] at h; subst h; exact ⟨0, rfl, rfl⟩
  | cons o os ih =>
    simp only [Cpu.run] at h
    obtain ⟨c1, h1, h2⟩ := Option.bind_eq_some_iff.mp h
    obtain ⟨s, hs, hav⟩ := ih c1 h2
    have key : ∀ (x y : Cpu) (l : List Op), x.precision = y.precision → x.natFreq = y.natFreq →
        x.simFreq = y.simFreq → charged x l = charged y l := by
      intro x y l e1 e2 e3
      induction l with
      | nil => rfl
      | cons o os ih => cases o <;> simp [charged, scaled, e1, e2, e3, ih]
    cases o with
    | updateTime t =>
      simp [Cpu.step, Cpu.updateTime] at h1
      subst h1
      exact ⟨s, by
        show charged c os = some s
        rw [← hs]; exact key _ _ os rfl rfl rfl, hav⟩
    | addDelay n =>
      obtain ⟨r, hr, rfl, -⟩ := C10_addDelay c c1 n h1
      refine ⟨r + s, ?_, by simp at hav; omega⟩
      simp only [charged, hr, Option.bind_eq_bind, Option.bind_some]
      rw [key c { c with avail := c.avail + r } os rfl rfl rfl, hs]
      rfl

/-- **C10 (finding).** A CPU's availability starts at the Unix epoch and is never brought up to the
    current time, while simulated time starts in the year 2000.  Hence, whatever the configuration and
    the history, no delay at all is reported until more than 946684800 s (30 years) of CPU time have
    been charged. -/
theorem C10_no_delay_for_30_years (sf nf : Nat) (th pr : Option Nat) (c c' : Cpu)
    (hnew : new sf nf th pr = some c) (ops : List Op) (h : c.run ops = some c') (s : Nat)
    (hs : charged c ops = some s) (hsmall : s ≤ simStart) (hnow : simStart ≤ c'.now) :
    c'.delay = 0 := by
  have hz : c.avail = 0 := by
    unfold new at hnew
    cases pr with
    | none => simp at hnew; rw [← hnew]
    | some p => 
      simp at hnew; rw [← hnew.2]
  obtain ⟨s', hs', hav⟩ := C10_avail_total c c' ops h
  rw [hs] at hs'; simp at hs'; subst hs'
  rcases C10_delay_above_threshold c' with h0 | ⟨t, -, h1, h2⟩
  · exact h0
  · omega

/-! ## Non-vacuity -/

/-- A CPU with threshold 1000 ns and precision 200 ns, twice as slow as the native one. -/
example : (new 1000 2000 (some 1000) (some 200)).bind
    (·.run [.updateTime 50, .addDelay 1250, .addDelay 333]) =
    some ⟨1000, 2000, some 1000, some 200, 50, 3200⟩ := by decide
example : (⟨1000, 2000, some 1000, some 200, 50, 3200⟩ : Cpu).delay = 3150 := by decide

/-- A history meeting the hypotheses of `C10_no_delay_for_30_years`: one hour of CPU time at the
    start of the simulation, reported as no delay. -/
example : ∃ c c', new 1000 1000 (some 1) none = some c ∧
    c.run [.updateTime simStart, .addDelay 3600000000000] = some c' ∧
    charged c [.updateTime simStart, .addDelay 3600000000000] = some 3600000000000 ∧
    c'.now = simStart ∧ c'.delay = 0 := by
  refine ⟨_, _, rfl, rfl, ?_, rfl, ?_⟩ <;> decide +kernel

end Shadow.Cpu
