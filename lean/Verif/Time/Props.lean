import Verif.Time.Model

/-!
# C42: simulated-time arithmetic is exact or explicitly fails

The specification is ordinary integer arithmetic: a *valid* duration is one that is at
most `simMax`, a valid instant is at most `emuMax`; an exact operation is described by
the mathematical result on `Nat`/`Int`.
-/
namespace Shadow.Time

/-- A representable duration. -/
def ValidSim (a : Nat) : Prop := a ≤ 17500059273709551614
/-- A representable instant. -/
def ValidEmu (t : Nat) : Prop := t ≤ 18446744073709551614

/-- The numeric constants of the source are the ones used in the specification. -/
theorem simMax_eq : simMax = 17500059273709551614 := by decide
theorem emuMax_eq : emuMax = 18446744073709551614 := by decide
theorem simStart_eq : simStart = 946684800000000000 := by decide

theorem fromC_spec (v : Nat) : Sim.fromC v = if v ≤ 17500059273709551614 then some v else none := by
  unfold Sim.fromC simInvalid u64Max; rw [simMax_eq]
  split <;> split <;> (try split) <;> simp_all <;> omega

theorem emu_fromC_spec (v : Nat) :
    Emu.fromC v = if v ≤ 18446744073709551614 then some v else none := by
  unfold Emu.fromC emuInvalid u64Max; rw [emuMax_eq]
  split <;> split <;> simp_all <;> omega

/-! ## Checked operations are exact -/

/-- Checked addition returns the exact sum if it is a valid duration and fails otherwise. -/
theorem checkedAdd_exact (a b : Nat) :
    Sim.checkedAdd a b = if a + b ≤ 17500059273709551614 then some (a + b) else none := by
  unfold Sim.checkedAdd U64.checkedAdd u64Max
  by_cases h : a + b ≤ 18446744073709551615
  · simp only [h, if_true, fromC_spec]
  · simp only [h, if_false]
    rw [if_neg (by omega)]

/-- Checked subtraction returns the exact difference if it is non-negative and fails otherwise. -/
theorem checkedSub_exact (a b : Nat) (ha : ValidSim a) :
    Sim.checkedSub a b = if b ≤ a then some (a - b) else none := by
  unfold ValidSim at ha
  unfold Sim.checkedSub U64.checkedSub
  by_cases h : b ≤ a
  · simp only [h, if_true, fromC_spec]
    rw [if_pos (by omega)]
  · simp only [h, if_false]

/-- Checked multiplication returns the exact product if it is valid and fails otherwise. -/
theorem checkedMul_exact (a n : Nat) :
    Sim.checkedMul a n = if a * n ≤ 17500059273709551614 then some (a * n) else none := by
  unfold Sim.checkedMul U64.checkedMul u64Max
  generalize a * n = p
  by_cases h : p ≤ 18446744073709551615
  · simp only [h, if_true, fromC_spec]
  · simp only [h, if_false]
    rw [if_neg (by omega)]

/-- Checked division and remainder fail exactly for a zero divisor; otherwise they are the
    Euclidean quotient and remainder. -/
theorem checkedDivRem_exact (a n : Nat) (ha : ValidSim a) (hn : ValidSim n) :
    (n = 0 → Sim.checkedDiv a n = none ∧ Sim.checkedRem a n = none) ∧
    (n ≠ 0 → ∃ q r, Sim.checkedDiv a n = some q ∧ Sim.checkedRem a n = some r ∧
        a = n * q + r ∧ r < n) := by
  unfold ValidSim at *
  constructor
  · intro h; subst h; simp [Sim.checkedDiv, Sim.checkedRem, U64.checkedDiv, U64.checkedRem]
  · intro h
    have h1 := Nat.div_le_self a n
    have h2 := Nat.mod_lt a (Nat.pos_of_ne_zero h)
    refine ⟨a / n, a % n, ?_, ?_, (Nat.div_add_mod a n).symm, h2⟩
    · simp only [Sim.checkedDiv, U64.checkedDiv, h, if_false, fromC_spec]; rw [if_pos (by omega)]
    · simp only [Sim.checkedRem, U64.checkedRem, h, if_false, fromC_spec]; rw [if_pos (by omega)]

example : Sim.checkedAdd 5 7 = some 12 := by decide
example : ValidSim 17500059273709551614 ∧ Sim.checkedAdd 17500059273709551614 1 = none := by
  constructor
  · unfold ValidSim; omega
  · decide

/-! ## Saturating operations -/

/-- Saturating subtraction of valid durations never panics and clamps at zero. -/
theorem saturatingSub_total (a b : Nat) (ha : ValidSim a) :
    Sim.saturatingSub a b = some (a - b) := by
  unfold ValidSim at ha
  unfold Sim.saturatingSub U64.checkedSub
  by_cases h : b ≤ a
  · simp only [h, if_true, Option.getD, fromC_spec]; rw [if_pos (by omega)]
  · simp only [h, if_false, Option.getD, fromC_spec]
    rw [if_pos (by omega)]; congr 1; omega

/-- **Finding.** The saturating addition is *not* total: it panics exactly when the sum lies
    strictly between the largest duration and the largest `u64`.  (The property "saturating
    operations clamp and never crash" is false of the code.) -/
theorem saturatingAdd_panics_iff (a b : Nat) :
    Sim.saturatingAdd a b = none ↔
      17500059273709551614 < a + b ∧ a + b ≤ 18446744073709551615 := by
  unfold Sim.saturatingAdd U64.checkedAdd u64Max; rw [simMax_eq]
  by_cases h : a + b ≤ 18446744073709551615
  · simp only [h, if_true, Option.getD, fromC_spec]
    by_cases h2 : a + b ≤ 17500059273709551614
    · simp [h2]; try omega
    · simp [h2]; try omega
  · simp only [h, if_false, Option.getD, fromC_spec]
    simp

/-- The saturating addition of two *valid* durations does panic for some inputs. -/
theorem saturatingAdd_can_panic :
    ∃ a b, ValidSim a ∧ ValidSim b ∧ Sim.saturatingAdd a b = none :=
  ⟨17500059273709551614, 1, by unfold ValidSim; omega, by unfold ValidSim; omega, by decide⟩

/-- **Finding.** The saturating multiplication panics exactly when the product lies in the
    same gap. -/
theorem saturatingMul_panics_iff (a n : Nat) :
    Sim.saturatingMul a n = none ↔
      17500059273709551614 < a * n ∧ a * n ≤ 18446744073709551615 := by
  unfold Sim.saturatingMul U64.checkedMul u64Max; rw [simMax_eq]
  generalize a * n = p
  by_cases h : p ≤ 18446744073709551615
  · simp only [h, if_true, Option.getD, fromC_spec]
    by_cases h2 : p ≤ 17500059273709551614
    · simp [h2]; try omega
    · simp [h2]; try omega
  · simp only [h, if_false, Option.getD, fromC_spec]
    simp

/-- Outside the gap the saturating operations clamp to the largest duration.
    (Full statement wanted: for all valid `a b` the result is `some (min (a+b) simMax)`;
    missing: the gap above, where the code panics.) -/
theorem saturating_clamps_partial (a b : Nat) :
    (¬ (17500059273709551614 < a + b ∧ a + b ≤ 18446744073709551615) →
      Sim.saturatingAdd a b = some (min (a + b) 17500059273709551614)) ∧
    (¬ (17500059273709551614 < a * b ∧ a * b ≤ 18446744073709551615) →
      Sim.saturatingMul a b = some (min (a * b) 17500059273709551614)) := by
  constructor
  · intro hg
    unfold Sim.saturatingAdd U64.checkedAdd u64Max; rw [simMax_eq]
    by_cases h : a + b ≤ 18446744073709551615
    · simp only [h, if_true, Option.getD, fromC_spec]
      rw [if_pos (by omega)]; congr 1; omega
    · simp only [h, if_false, Option.getD, fromC_spec]
      simp; omega
  · intro hg
    unfold Sim.saturatingMul U64.checkedMul u64Max; rw [simMax_eq]
    revert hg; generalize a * b = p; intro hg
    by_cases h : p ≤ 18446744073709551615
    · simp only [h, if_true, Option.getD, fromC_spec]
      rw [if_pos (by omega)]; congr 1; omega
    · simp only [h, if_false, Option.getD, fromC_spec]
      simp; omega

example : ¬ (17500059273709551614 < 3 + 4 ∧ 3 + 4 ≤ 18446744073709551615) ∧
    Sim.saturatingAdd 3 4 = some 7 := by decide
example : Sim.saturatingMul 17500059273709551614 1000 = some 17500059273709551614 := by decide

/-! ## Conversions -/

/-- `seconds → SimulationTime → seconds` is the identity whenever the conversion succeeds, and
    it succeeds exactly if the number of nanoseconds is representable; same for the other units. -/
theorem fromUnits_roundtrip (s : Nat) :
    (∀ a, Sim.tryFromSecs s = some a → Sim.asSecs a = s ∧ a = s * 1000000000) ∧
    (∀ a, Sim.tryFromMillis s = some a → Sim.asMillis a = s ∧ a = s * 1000000) ∧
    (∀ a, Sim.tryFromMicros s = some a → Sim.asMicros a = s ∧ a = s * 1000) ∧
    (∀ a, Sim.tryFromNanos s = some a → a = s) ∧
    (Sim.tryFromSecs s = none ↔ 17500059273709551614 < s * 1000000000) := by
  simp only [Sim.tryFromSecs, Sim.tryFromMillis, Sim.tryFromMicros, Sim.tryFromNanos,
    checkedMul_exact, oneSecond, oneMilli, oneMicro, Sim.asSecs, Sim.asMillis, Sim.asMicros]
  refine ⟨?_, ?_, ?_, ?_, ?_⟩
  · intro a h; split at h <;> simp_all <;> omega
  · intro a h; split at h <;> simp_all <;> omega
  · intro a h; split at h <;> simp_all <;> omega
  · intro a h; split at h <;> simp_all <;> omega
  · split <;> simp <;> omega

/-- The second/sub-second parts determine the value. -/
theorem parts_recompose (a : Nat) :
    Sim.asSecs a * 1000000000 + Sim.subsecNanos a = a ∧ Sim.subsecNanos a < 1000000000 ∧
    Sim.subsecMillis a = Sim.subsecNanos a / 1000000 ∧
    Sim.subsecMicros a = Sim.subsecNanos a / 1000 := by
  simp only [Sim.asSecs, Sim.subsecNanos, Sim.subsecMillis, Sim.subsecMicros, Sim.asMillis,
    Sim.asMicros, oneSecond, oneMilli, oneMicro]
  omega

/-- A C `timespec` is accepted exactly if it is normalised, non-negative and representable, and
    then denotes the exact number of nanoseconds. -/
theorem tryFromTimespec_exact (s n : Int) (a : Nat) :
    Sim.tryFromTimespec s n = some a ↔
      (0 ≤ s ∧ 0 ≤ n ∧ n < 1000000000 ∧ (a : Int) = s * 1000000000 + n ∧
        (a : Int) ≤ 17500059273709551614) := by
  unfold Sim.tryFromTimespec Sim.tryFromDuration; rw [simMax_eq]
  by_cases h : s < 0 ∨ n < 0 ∨ n > 999999999
  · simp only [h, if_true]
    constructor
    · intro h'; simp at h'
    · intro h'; omega
  · simp only [h, if_false]
    split
    · constructor
      · intro h'; simp at h'
      · intro h'; omega
    · simp only [Option.some.injEq]
      omega

/-- `SimulationTime → timespec → SimulationTime` is the identity on every valid duration. -/
theorem timespec_roundtrip (a : Nat) (ha : ValidSim a) :
    ∃ s n, Sim.toTimespec a = some (s, n) ∧ Sim.tryFromTimespec s n = some a := by
  unfold ValidSim at ha
  refine ⟨(a / 1000000000 : Nat), (a % 1000000000 : Nat), ?_, ?_⟩
  · unfold Sim.toTimespec; rw [if_pos (by omega)]
  · rw [tryFromTimespec_exact]; omega

/-- `timespec → SimulationTime → timespec` is the identity on every accepted timespec. -/
theorem timespec_roundtrip' (s n : Int) (a : Nat) (h : Sim.tryFromTimespec s n = some a) :
    Sim.toTimespec a = some (s, n) := by
  rw [tryFromTimespec_exact] at h
  unfold Sim.toTimespec
  rw [if_pos (by omega)]
  simp only [Option.some.injEq, Prod.mk.injEq]
  omega

/-- `SimulationTime → timeval → SimulationTime` truncates to whole microseconds. -/
theorem timeval_roundtrip (a : Nat) (ha : ValidSim a) :
    ∃ s u, Sim.toTimeval a = some (s, u) ∧ Sim.tryFromTimeval s u = some (a - a % 1000) := by
  unfold ValidSim at ha
  refine ⟨(a / 1000000000 : Nat), ((a % 1000000000) / 1000 : Nat), ?_, ?_⟩
  · unfold Sim.toTimeval; rw [if_pos (by omega)]
  · unfold Sim.tryFromTimeval Sim.tryFromDuration; rw [simMax_eq]
    rw [if_neg (by omega)]
    simp only [Int.toNat_natCast]
    rw [if_neg (by omega)]
    congr 1; omega

/-- `timeval → SimulationTime → timeval` is the identity on every accepted timeval. -/
theorem timeval_roundtrip' (s u : Int) (a : Nat) (h : Sim.tryFromTimeval s u = some a) :
    Sim.toTimeval a = some (s, u) := by
  unfold Sim.tryFromTimeval Sim.tryFromDuration at h; rw [simMax_eq] at h
  split at h
  · simp at h
  · split at h
    · simp at h
    · simp only [Option.some.injEq] at h
      unfold Sim.toTimeval
      rw [if_pos (by omega)]
      simp only [Option.some.injEq, Prod.mk.injEq]
      omega

example : Sim.tryFromTimespec 3 500 = some 3000000500 := by decide
example : Sim.tryFromTimeval 3 500 = some 3000500000 := by decide

/-- The formatted hours/minutes/seconds/nanoseconds of any valid duration recompose to it and
    are in their clock ranges, and the conversion does not panic. -/
theorem timeParts_exact (a : Nat) (ha : ValidSim a) :
    ∃ p, TimeParts.fromNanos a = some p ∧
      ((p.hours * 60 + p.mins) * 60 + p.secs) * 1000000000 + p.nanos = a ∧
      p.mins < 60 ∧ p.secs < 60 ∧ p.nanos < 1000000000 := by
  unfold ValidSim at ha
  unfold TimeParts.fromNanos u64Max
  refine ⟨_, by rw [if_pos (by omega)]; simp only []; rw [if_pos (by omega)], ?_⟩
  simp only []
  omega

/-! ## Instants -/

/-- Adding a duration to an instant is exact or fails. -/
theorem emu_checkedAdd_exact (t d : Nat) :
    Emu.checkedAdd t d = if t + d ≤ 18446744073709551614 then some (t + d) else none := by
  unfold Emu.checkedAdd U64.checkedAdd u64Max
  by_cases h : t + d ≤ 18446744073709551615
  · simp only [h, if_true, emu_fromC_spec]
  · simp only [h, if_false]; rw [if_neg (by omega)]

theorem emu_checkedSub_exact (t d : Nat) (ht : ValidEmu t) :
    Emu.checkedSub t d = if d ≤ t then some (t - d) else none := by
  unfold ValidEmu at ht
  unfold Emu.checkedSub U64.checkedSub
  by_cases h : d ≤ t
  · simp only [h, if_true, emu_fromC_spec]; rw [if_pos (by omega)]
  · simp only [h, if_false]

/-- The duration between two instants is exact; it fails exactly if the order is reversed or the
    distance exceeds the largest duration. -/
theorem emu_checkedDurationSince_exact (t e : Nat) :
    Emu.checkedDurationSince t e =
      if e ≤ t ∧ t - e ≤ 17500059273709551614 then some (t - e) else none := by
  unfold Emu.checkedDurationSince U64.checkedSub
  by_cases h : e ≤ t
  · simp only [h, if_true, fromC_spec, true_and]
  · simp [h]

/-- `(t + d) - t = d` and `(t - e) + e = t`: instants and durations compose. -/
theorem emu_add_sub_roundtrip (t d r : Nat) (hd : ValidSim d) (h : Emu.checkedAdd t d = some r) :
    Emu.checkedDurationSince r t = some d ∧ Emu.checkedSub r d = some t ∧ t ≤ r := by
  rw [emu_checkedAdd_exact] at h
  unfold ValidSim at hd
  split at h
  · simp only [Option.some.injEq] at h
    refine ⟨?_, ?_, by omega⟩
    · rw [emu_checkedDurationSince_exact, if_pos (by omega)]; congr 1; omega
    · rw [emu_checkedSub_exact _ _ (by unfold ValidEmu; omega), if_pos (by omega)]; congr 1; omega
  · simp at h

/-- Every duration since the start of the simulation corresponds to an instant and back, without
    a panic. -/
theorem abs_simtime_roundtrip (d : Nat) (hd : ValidSim d) :
    ∃ t, Emu.fromAbsSimtime d = some t ∧ ValidEmu t ∧ Emu.toAbsSimtime t = some d := by
  unfold ValidSim at hd
  refine ⟨946684800000000000 + d, ?_, ?_, ?_⟩
  · unfold Emu.fromAbsSimtime; rw [emu_checkedAdd_exact, simStart_eq, if_pos (by omega)]
  · unfold ValidEmu; omega
  · unfold Emu.toAbsSimtime Emu.durationSince
    rw [emu_checkedDurationSince_exact, simStart_eq, if_pos (by omega), Nat.add_sub_cancel_left]

/-- Instant addition saturates at the largest instant and never decreases time. -/
theorem emu_saturatingAdd_clamps (t d : Nat) (ht : ValidEmu t) :
    Emu.saturatingAdd t d = min (t + d) 18446744073709551614 ∧ t ≤ Emu.saturatingAdd t d := by
  unfold ValidEmu at ht
  have : Emu.saturatingAdd t d = min (t + d) 18446744073709551614 := by
    unfold Emu.saturatingAdd; rw [emu_checkedAdd_exact, emuMax_eq]
    by_cases h : t + d ≤ 18446744073709551614
    · simp only [h, if_true]; omega
    · simp only [h, if_false]; omega
  refine ⟨this, ?_⟩
  rw [this]; omega

/-- **Finding.** Saturating subtraction of a duration from an instant does not clamp at the
    smallest instant: on underflow it returns the simulation start, so subtracting can move time
    *forward*. -/
theorem emu_saturatingSub_can_increase :
    ∃ t d, ValidEmu t ∧ ValidSim d ∧ 0 < d ∧ t < Emu.saturatingSub t d :=
  ⟨0, 1, by unfold ValidEmu; omega, by unfold ValidSim; omega, by omega, by decide⟩

/-- Exact description of the saturating subtraction. -/
theorem emu_saturatingSub_spec (t d : Nat) (ht : ValidEmu t) :
    Emu.saturatingSub t d = if d ≤ t then t - d else 946684800000000000 := by
  unfold Emu.saturatingSub; rw [emu_checkedSub_exact t d ht, simStart_eq]
  by_cases h : d ≤ t
  · simp only [h, if_true]
  · simp only [h, if_false]

/-- **Finding.** `saturating_duration_since` returns zero (rather than the largest duration) if
    the distance is too large to represent. -/
theorem emu_saturatingDurationSince_zero_for_huge :
    ∃ t e, ValidEmu t ∧ ValidEmu e ∧ e < t ∧ Emu.saturatingDurationSince t e = 0 :=
  ⟨18446744073709551614, 0, by unfold ValidEmu; omega, by unfold ValidEmu; omega, by omega, by decide⟩

/-- For instants at or after the simulation start (every instant a running simulation uses) the
    saturating distance is the truncated difference. -/
theorem emu_saturatingDurationSince_spec (t e : Nat) (ht : ValidEmu t)
    (he : 946684800000000000 ≤ e) :
    Emu.saturatingDurationSince t e = t - e := by
  unfold ValidEmu at ht
  unfold Emu.saturatingDurationSince
  rw [emu_checkedDurationSince_exact]
  by_cases h : e ≤ t
  · rw [if_pos (by omega)]; rfl
  · rw [if_neg (by omega)]; simp; omega

example : ValidEmu 946684800000000005 ∧
    Emu.saturatingDurationSince 946684800000000005 946684800000000000 = 5 := by
  constructor
  · unfold ValidEmu; omega
  · decide

end Shadow.Time
