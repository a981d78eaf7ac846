import Verif.TokenBucket.Model
import Verif.Time.Props

/-!
# C11, C12: the token bucket bounds the rate and predicts its waits exactly
-/
namespace Shadow.TB

open Shadow.Time

/-- Well-formed bucket: what `newInner` establishes and every operation keeps. -/
structure WF (b : Bucket) : Prop where
  inc_pos : 0 < b.inc
  int_pos : 0 < b.interval
  int_le : b.interval ≤ simMax
  cap_pos : 0 < b.capacity
  cap_le : b.capacity ≤ u64Max
  bal_le : b.balance ≤ b.capacity
  last_ge : simStart ≤ b.last
  last_le : b.last ≤ emuMax

theorem newInner_wf (c i v l : Nat) (b : Bucket) (h : newInner c i v l = some b)
    (hc : c ≤ u64Max) (hv : v ≤ simMax) (hl : simStart ≤ l) (hl' : l ≤ emuMax) :
    WF b ∧ b.balance = c ∧ b.capacity = c ∧ b.inc = i ∧ b.interval = v ∧ b.last = l := by
  unfold newInner at h
  split at h
  · next hh => simp at h; subst h; exact ⟨⟨hh.2.1, by simp; omega, hv, hh.1, hc, by simp, hl, hl'⟩, by simp⟩
  · simp at h

/-- Specification: refill instants are `last + k * interval`; `refills b now` is the number of
    such instants in `(last, now]`. -/
def refills (b : Bucket) (now : Nat) : Nat := (now - b.last) / b.interval

/-- Specification: the tokens available at time `now` if nothing is removed in between. -/
def available (b : Bucket) (now : Nat) : Nat :=
  min b.capacity (b.balance + b.inc * refills b now)

theorem fromC_some {v : Nat} (h : v ≤ simMax) : Sim.fromC v = some v := by
  have := simMax_eq; 
  unfold Sim.fromC simInvalid u64Max
  have h2 : ¬ v > simMax := by omega
  have h1 : ¬ v = 18446744073709551615 := by omega
  simp [h1, h2]

theorem durationSince_some {t e : Nat} (h : e ≤ t) (h2 : t - e ≤ simMax) :
    Emu.durationSince t e = some (t - e) := by
  simp [Emu.durationSince, Emu.checkedDurationSince, U64.checkedSub, h, fromC_some h2]

theorem checkedSub_some {a b : Nat} (h : b ≤ a) (h2 : a ≤ simMax) :
    Sim.checkedSub a b = some (a - b) := by
  simp [Sim.checkedSub, U64.checkedSub, h, fromC_some (show a - b ≤ simMax by omega)]

theorem satMul_some {a n : Nat} (h : a * n ≤ simMax) : Sim.saturatingMul a n = some (a * n) := by
  have h1 := simMax_eq
  have : a * n ≤ u64Max := by unfold u64Max; omega
  simp [Sim.saturatingMul, U64.checkedMul, this, fromC_some h]

theorem satAdd_some {a n : Nat} (h : a + n ≤ simMax) : Sim.saturatingAdd a n = some (a + n) := by
  have h1 := simMax_eq
  have : a + n ≤ u64Max := by unfold u64Max; omega
  simp [Sim.saturatingAdd, U64.checkedAdd, this, fromC_some h]

theorem emu_satAdd {t d : Nat} (h : t + d ≤ emuMax) : Emu.saturatingAdd t d = t + d := by
  have h1 := emuMax_eq
  have : t + d ≤ u64Max := by unfold u64Max; omega
  have h3 : ¬ (t + d = emuInvalid ∨ emuMax < t + d) := by
    unfold emuInvalid u64Max; omega
  simp [Emu.saturatingAdd, Emu.checkedAdd, U64.checkedAdd, this, Emu.fromC, h3]

/-- The bucket right after bringing it up to date. -/
def refilled (b : Bucket) (now : Nat) : Bucket :=
  { b with balance := available b now, last := b.last + b.interval * refills b now }

/-- `lazy_refill` computes exactly the specified balance, never panics in range, and reports the
    exact distance to the next refill instant. -/
theorem lazyRefill_spec (b : Bucket) (now : Nat) (hw : WF b) (h1 : b.last ≤ now)
    (h2 : now ≤ emuMax) :
    lazyRefill b now = some (refilled b now, b.interval - (now - b.last) % b.interval) := by
  obtain ⟨hip, hvp, hvl, hcp, hcl, hbl, hlg, hll⟩ := hw
  have hspan : now - b.last ≤ simMax := by
    have : simMax = emuMax - simStart := rfl
    omega
  unfold lazyRefill
  rw [durationSince_some h1 hspan]
  simp only [Option.bind_eq_bind, Option.bind_some]
  have hdm := Nat.div_add_mod (now - b.last) b.interval
  have hlt := Nat.mod_lt (now - b.last) hvp
  by_cases hge : now - b.last ≥ b.interval
  · simp only [hge, if_true]
    have hmul : b.interval * ((now - b.last) / b.interval) ≤ simMax := by omega
    rw [satMul_some hmul]
    simp only [Option.bind_some]
    rw [emu_satAdd (show b.last + b.interval * ((now - b.last) / b.interval) ≤ emuMax by omega)]
    have e1 : now - (b.last + b.interval * ((now - b.last) / b.interval))
        = (now - b.last) % b.interval := by omega
    rw [durationSince_some (by omega) (by omega)]
    simp only [Option.bind_some, e1]
    rw [checkedSub_some (by omega) hvl]
    simp only [Option.bind_some, Option.some.injEq, Prod.mk.injEq, and_true]
    unfold refilled available refills satAdd64 satMul64
    congr 1
    omega
  · simp only [hge, if_false]
    have hlt' : now - b.last < b.interval := by omega
    rw [checkedSub_some (by omega) hvl]
    simp only [Option.bind_some, Option.some.injEq, Prod.mk.injEq]
    have hz : (now - b.last) / b.interval = 0 := Nat.div_eq_of_lt hlt'
    have hm : (now - b.last) % b.interval = now - b.last := Nat.mod_eq_of_lt hlt'
    rw [hm]
    refine ⟨?_, rfl⟩
    unfold refilled available refills
    rw [hz]
    cases b
    simp at hbl ⊢
    omega

theorem refilled_wf (b : Bucket) (now : Nat) (hw : WF b) (h1 : b.last ≤ now)
    (h2 : now ≤ emuMax) : WF (refilled b now) := by
  obtain ⟨hip, hvp, hvl, hcp, hcl, hbl, hlg, hll⟩ := hw
  have hdm := Nat.div_add_mod (now - b.last) b.interval
  refine ⟨hip, hvp, hvl, hcp, hcl, ?_, ?_, ?_⟩
  · simp [refilled, available]; omega
  · simp [refilled, refills]; omega
  · simp [refilled, refills]; omega

/-- **C11 (admission).** A removal succeeds exactly if the specified available tokens suffice; it
    then takes exactly `dec` tokens.  Otherwise no token is taken. -/
theorem remove_spec (b : Bucket) (dec now : Nat) (hw : WF b) (h1 : b.last ≤ now)
    (h2 : now ≤ emuMax) (b' : Bucket) (r : Res) (h : remove b dec now = some (b', r)) :
    (dec ≤ available b now ∧ r = .ok (available b now - dec) ∧
      b' = { refilled b now with balance := available b now - dec }) ∨
    (available b now < dec ∧ (∃ w, r = .wait w) ∧ b' = refilled b now) := by
  unfold remove at h
  rw [lazyRefill_spec b now hw h1 h2] at h
  simp only [Option.bind_eq_bind, Option.bind_some] at h
  have hb : (refilled b now).balance = available b now := rfl
  by_cases hc : dec ≤ available b now
  · rw [hb] at h; simp [hc] at h
    exact .inl ⟨hc, h.2.symm, h.1.symm⟩
  · rw [hb] at h; simp only [hc, if_false] at h
    obtain ⟨d, hd, he⟩ := Option.bind_eq_some_iff.mp h
    simp at he
    exact .inr ⟨by omega, ⟨d, he.2.symm⟩, he.1.symm⟩

/-- Removing keeps the bucket well formed and its clock not after `now` but less than one interval
    behind it. -/
theorem remove_wf (b : Bucket) (dec now : Nat) (hw : WF b) (h1 : b.last ≤ now)
    (h2 : now ≤ emuMax) (b' : Bucket) (r : Res) (h : remove b dec now = some (b', r)) :
    WF b' ∧ b'.last = b.last + b.interval * refills b now ∧ b'.last ≤ now ∧
    now < b'.last + b.interval ∧ b'.capacity = b.capacity ∧ b'.inc = b.inc ∧
    b'.interval = b.interval := by
  have hr := refilled_wf b now hw h1 h2
  have hdm := Nat.div_add_mod (now - b.last) b.interval
  have hlt := Nat.mod_lt (now - b.last) hw.int_pos
  rcases remove_spec b dec now hw h1 h2 b' r h with ⟨_, _, rfl⟩ | ⟨_, _, rfl⟩
  · refine ⟨⟨hr.1, hr.2, hr.3, hr.4, hr.5, ?_, hr.7, hr.8⟩, rfl, ?_, ?_, rfl, rfl, rfl⟩
    · have := hr.6; simp [refilled] at this ⊢; omega
    · simp [refilled, refills]; omega
    · simp [refilled, refills]; omega
  · refine ⟨hr, rfl, ?_, ?_, rfl, rfl, rfl⟩
    · simp [refilled, refills]; omega
    · simp [refilled, refills]; omega

/-- Specification: the tokens removed successfully in a history. -/
def accepted : List (Nat × Nat) → List Res → Nat
  | (_, d) :: os, .ok _ :: rs => d + accepted os rs
  | _ :: os, .wait _ :: rs => accepted os rs
  | _, _ => 0

/-- Token conservation along a history: what was taken plus what is left is at most what was there
    plus one increment per elapsed refill instant. -/
theorem run_conserve (b : Bucket) (ops : List (Nat × Nat)) (hw : WF b)
    (hs : (b.last :: ops.map (·.1)).Pairwise (· ≤ ·)) (hm : ∀ o ∈ ops, o.1 ≤ emuMax)
    (rs : List Res) (b' : Bucket) (h : run b ops = some (rs, b')) :
    ∃ k, accepted ops rs + b'.balance ≤ b.balance + b.inc * k ∧
      b'.last = b.last + b.interval * k ∧ WF b' ∧
      (∀ t, b.last ≤ t → (∀ o ∈ ops, o.1 ≤ t) → b'.last ≤ t) := by
  induction ops generalizing b rs with
  | nil =>
    simp [run] at h; obtain ⟨rfl, rfl⟩ := h
    exact ⟨0, by simp [accepted], by simp, hw, fun t ht _ => ht⟩
  | cons o os ih =>
    obtain ⟨t, d⟩ := o
    simp only [run, Option.bind_eq_bind] at h
    obtain ⟨⟨b1, r⟩, hr, h⟩ := Option.bind_eq_some_iff.mp h
    obtain ⟨⟨rs1, b2⟩, hrun, h⟩ := Option.bind_eq_some_iff.mp h
    simp at h; obtain ⟨rfl, rfl⟩ := h
    have hs' := List.pairwise_cons.mp hs
    have hlt : b.last ≤ t := hs'.1 t (by simp)
    have hte : t ≤ emuMax := hm (t, d) (by simp)
    obtain ⟨hw1, hl1, hle1, hlt1, hc1, hi1, hv1⟩ := remove_wf b d t hw hlt hte b1 r hr
    have hs1 : (b1.last :: os.map (·.1)).Pairwise (· ≤ ·) := by
      have h2 := List.pairwise_cons.mp hs'.2
      refine List.pairwise_cons.mpr ⟨fun x hx => ?_, h2.2⟩
      have := h2.1 x hx
      simp at this; omega
    obtain ⟨k, hk1, hk2, hk3, hk4⟩ := ih b1 hw1 hs1 (fun o ho => hm o (by simp [ho])) rs1 hrun
    refine ⟨refills b t + k, ?_, ?_, hk3, ?_⟩
    · rw [Nat.mul_add]
      rw [hi1] at hk1
      have hav : available b t ≤ b.balance + b.inc * refills b t := by
        unfold available; omega
      rcases remove_spec b d t hw hlt hte b1 r hr with ⟨h3, rfl, h4⟩ | ⟨h3, ⟨w, rfl⟩, h4⟩
      · have : b1.balance = available b t - d := by rw [h4]
        simp only [accepted]; omega
      · have : b1.balance = available b t := by rw [h4]; rfl
        simp only [accepted]; omega
    · rw [hk2, hl1, hv1, Nat.mul_add]; omega
    · intro T hT hall
      refine hk4 T ?_ (fun o ho => hall o (by simp [ho]))
      have := hall (t, d) (by simp)
      simp at this; omega

/-- **C11.** For every well-formed bucket in any state and every history of removal attempts at
    non-decreasing times inside a window `[t0, t1]`, the tokens handed out are at most the capacity
    plus one increment per interval of the window (plus one for alignment). -/
theorem C11_rate_bound (b : Bucket) (ops : List (Nat × Nat)) (t0 t1 : Nat) (hw : WF b)
    (hb : b.last ≤ t0) (hs : (ops.map (·.1)).Pairwise (· ≤ ·))
    (hwin : ∀ o ∈ ops, t0 ≤ o.1 ∧ o.1 ≤ t1) (ht1 : t1 ≤ emuMax)
    (rs : List Res) (b' : Bucket) (h : run b ops = some (rs, b')) :
    accepted ops rs ≤ b.capacity + b.inc * ((t1 - t0) / b.interval + 1) := by
  cases ops with
  | nil => simp [run] at h; obtain ⟨rfl, rfl⟩ := h; simp [accepted]
  | cons o os =>
    obtain ⟨t, d⟩ := o
    simp only [run, Option.bind_eq_bind] at h
    obtain ⟨⟨b1, r⟩, hr, h⟩ := Option.bind_eq_some_iff.mp h
    obtain ⟨⟨rs1, b2⟩, hrun, h⟩ := Option.bind_eq_some_iff.mp h
    simp at h; obtain ⟨rfl, rfl⟩ := h
    obtain ⟨ht0, htt1⟩ := hwin (t, d) (by simp)
    simp at ht0 htt1
    obtain ⟨hw1, hl1, hle1, hlt1, hc1, hi1, hv1⟩ :=
      remove_wf b d t hw (by omega) (by omega) b1 r hr
    have hp := List.pairwise_cons.mp hs
    have hs1 : (b1.last :: os.map (·.1)).Pairwise (· ≤ ·) := by
      refine List.pairwise_cons.mpr ⟨fun x hx => ?_, hp.2⟩
      have := hp.1 x hx
      simp at this; omega
    obtain ⟨k, hk1, hk2, hk3, hk4⟩ := run_conserve b1 os hw1 hs1
      (fun o ho => by have := hwin o (by simp [ho]); omega) rs1 b2 hrun
    have hlast := hk4 t1 (by omega) (fun o ho => (hwin o (by simp [ho])).2)
    rw [hi1] at hk1
    have hk : k ≤ (t1 - t0) / b.interval + 1 := by
      rw [hk2, hv1] at hlast
      have h6 : b.interval * k ≤ (t1 - t0) + b.interval := by omega
      have h7 : k ≤ ((t1 - t0) + b.interval) / b.interval :=
        (Nat.le_div_iff_mul_le hw.int_pos).mpr (by rw [Nat.mul_comm]; exact h6)
      rwa [Nat.add_div_right _ hw.int_pos] at h7
    have hmul : b.inc * k ≤ b.inc * ((t1 - t0) / b.interval + 1) := Nat.mul_le_mul_left _ hk
    have hav : available b t ≤ b.capacity := by unfold available; omega
    rcases remove_spec b d t hw (by omega) (by omega) b1 r hr with
      ⟨h3, rfl, h4⟩ | ⟨h3, ⟨w, rfl⟩, h4⟩
    · have : b1.balance = available b t - d := by rw [h4]
      simp only [accepted]; omega
    · have : b1.balance = available b t := by rw [h4]; rfl
      simp only [accepted]; omega

/-- The wait reported for a refused removal, in closed form: the distance to the refill instant
    number `⌈(dec - available) / inc⌉`. -/
theorem wait_value (b : Bucket) (dec now w : Nat) (hw : WF b) (h1 : b.last ≤ now)
    (h2 : now ≤ emuMax) (b' : Bucket) (h : remove b dec now = some (b', .wait w))
    (hfit : b.interval * ((dec - available b now - 1) / b.inc + 1) ≤ simMax) :
    now + w = (refilled b now).last +
      b.interval * ((dec - available b now - 1) / b.inc + 1) := by
  unfold remove at h
  rw [lazyRefill_spec b now hw h1 h2] at h
  simp only [Option.bind_eq_bind, Option.bind_some] at h
  have hb : (refilled b now).balance = available b now := rfl
  rw [hb] at h
  by_cases hc : dec ≤ available b now
  · simp [hc] at h
  · simp only [hc, if_false] at h
    obtain ⟨d, hd, he⟩ := Option.bind_eq_some_iff.mp h
    simp at he
    obtain ⟨-, rfl⟩ := he
    unfold conformingDuration at hd
    rw [hb] at hd
    have e1 : (refilled b now).inc = b.inc := rfl
    have e2 : (refilled b now).interval = b.interval := rfl
    have e3 : (refilled b now).last = b.last + b.interval * ((now - b.last) / b.interval) := rfl
    rw [e1, e2] at hd
    simp only at hd
    have hip := hw.inc_pos
    have hn : (if (dec - available b now) % b.inc > 0 then (dec - available b now) / b.inc + 1
        else (dec - available b now) / b.inc) = (dec - available b now - 1) / b.inc + 1 := by
      have hr : 0 < dec - available b now := by omega
      generalize dec - available b now = r at hr
      have hdm := Nat.div_add_mod r b.inc
      have hml := Nat.mod_lt r hip
      split
      · next hm =>
        congr 1
        symm
        rw [Nat.div_eq_iff hip]
        rw [Nat.mul_comm] at hdm
        constructor
        · omega
        · omega
      · next hm =>
        have hm0 : r % b.inc = 0 := by omega
        have hq : 0 < r / b.inc := by
          rcases Nat.eq_zero_or_pos (r / b.inc) with h0 | h0
          · rw [h0, hm0] at hdm; omega
          · exact h0
        have : (r - 1) / b.inc = r / b.inc - 1 := by
          rw [Nat.div_eq_iff hip]
          have h8 : (r / b.inc - 1) * b.inc = b.inc * (r / b.inc) - b.inc := by
            rw [Nat.mul_comm, Nat.mul_sub, Nat.mul_one]
          have h9 : b.inc ≤ b.inc * (r / b.inc) := Nat.le_mul_of_pos_right _ hq
          omega
        omega
    rw [hn] at hd
    have hdm := Nat.div_add_mod (now - b.last) b.interval
    have hml := Nat.mod_lt (now - b.last) hw.int_pos
    rw [e3]
    generalize (dec - available b now - 1) / b.inc = n at hd hfit ⊢
    rcases n with _ | n
    · simp at hd
      simp; omega
    · simp only [Nat.add_sub_cancel] at hd
      have hx : b.interval * (n + 1 + 1) = b.interval * (n + 1) + b.interval := by
        rw [Nat.mul_add b.interval (n + 1) 1, Nat.mul_one]
      rw [satMul_some (by omega)] at hd
      simp only [Option.bind_eq_bind, Option.bind_some] at hd
      rw [satAdd_some (by omega)] at hd
      simp at hd
      omega

/-- `available` only depends on how many refill instants have passed, so it can be computed from the
    brought-up-to-date bucket. -/
theorem available_refilled (b : Bucket) (now t : Nat) (hw : WF b) (h1 : b.last ≤ now)
    (h2 : now ≤ t) : available (refilled b now) t = available b t := by
  have hvp := hw.int_pos
  have hdm := Nat.div_add_mod (now - b.last) b.interval
  have hml := Nat.mod_lt (now - b.last) hvp
  have e : (t - b.last) / b.interval =
      (now - b.last) / b.interval + (t - (b.last + b.interval * ((now - b.last) / b.interval))) / b.interval := by
    have : t - b.last = (t - (b.last + b.interval * ((now - b.last) / b.interval)))
        + b.interval * ((now - b.last) / b.interval) := by omega
    rw [this, Nat.add_mul_div_left _ _ hvp]
    omega
  simp only [available, refilled, refills]
  rw [e, Nat.mul_add]
  omega

/-- **C12 (exact wait).** Suppose a removal of `dec` tokens not exceeding the capacity is refused at
    `now` with wait `w` (and the wait is representable).  Then `w` is positive, `now + w` is a refill
    instant, a retry at `now + w` succeeds, and a retry at any earlier time is refused again. -/
theorem C12_exact_wait (b : Bucket) (dec now w : Nat) (hw : WF b) (h1 : b.last ≤ now)
    (h2 : now ≤ emuMax) (b' : Bucket) (h : remove b dec now = some (b', .wait w))
    (hcap : dec ≤ b.capacity)
    (hfit : b.interval * ((dec - available b now - 1) / b.inc + 1) ≤ simMax) :
    0 < w ∧ (∃ k, now + w = b.last + b.interval * k) ∧
    (∀ t, now + w ≤ t → dec ≤ available b' t) ∧
    (∀ t, now ≤ t → t < now + w → available b' t < dec) := by
  have hv := wait_value b dec now w hw h1 h2 b' h hfit
  have hvp := hw.int_pos
  have hip := hw.inc_pos
  have hdm := Nat.div_add_mod (now - b.last) b.interval
  have hml := Nat.mod_lt (now - b.last) hvp
  rcases remove_spec b dec now hw h1 h2 b' _ h with ⟨-, hr, -⟩ | ⟨hlt, -, hb'⟩
  · cases hr
  have e3 : (refilled b now).last = b.last + b.interval * ((now - b.last) / b.interval) := rfl
  generalize hn : (dec - available b now - 1) / b.inc + 1 = n at hv hfit
  have hn1 : 1 ≤ n := hn ▸ Nat.le_add_left 1 _
  have hin : b.interval ≤ b.interval * n := Nat.le_mul_of_pos_right _ hn1
  have hdm2 := Nat.div_add_mod (dec - available b now - 1) b.inc
  have hml2 := Nat.mod_lt (dec - available b now - 1) hip
  have hA : dec - available b now ≤ b.inc * n := by
    rw [← hn, Nat.mul_add]; omega
  have hB : ∀ m, m < n → b.inc * m < dec - available b now := by
    intro m hm
    have : b.inc * m ≤ b.inc * (n - 1) := Nat.mul_le_mul_left _ (by omega)
    have h5 : n - 1 = (dec - available b now - 1) / b.inc := by omega
    rw [h5] at this
    omega
  refine ⟨by omega, ⟨(now - b.last) / b.interval + n, ?_⟩, ?_, ?_⟩
  · rw [hv, e3, Nat.mul_add]; omega
  · intro t ht
    subst hb'
    have hk : n ≤ (t - (refilled b now).last) / b.interval := by
      rw [Nat.le_div_iff_mul_le hvp, Nat.mul_comm]; omega
    have hmul : b.inc * n ≤ b.inc * ((t - (refilled b now).last) / b.interval) :=
      Nat.mul_le_mul_left _ hk
    show dec ≤ min b.capacity (available b now + b.inc * ((t - (refilled b now).last) / b.interval))
    omega
  · intro t ht1 ht2
    subst hb'
    have hk : (t - (refilled b now).last) / b.interval < n := by
      rw [Nat.div_lt_iff_lt_mul hvp, Nat.mul_comm]; omega
    have := hB _ hk
    show min b.capacity (available b now + b.inc * ((t - (refilled b now).last) / b.interval)) < dec
    omega

/-- C12 restated on the operation itself: retrying at `now + w` succeeds, and retrying at any
    earlier time yields another wait ending at the same instant. -/
theorem C12_retry (b : Bucket) (dec now w : Nat) (hw : WF b) (h1 : b.last ≤ now)
    (h2 : now ≤ emuMax) (b' : Bucket) (h : remove b dec now = some (b', .wait w))
    (hcap : dec ≤ b.capacity)
    (hfit : b.interval * ((dec - available b now - 1) / b.inc + 1) ≤ simMax)
    (t : Nat) (b'' : Bucket) (r : Res) (ht : now ≤ t) (hte : t ≤ emuMax)
    (hr : remove b' dec t = some (b'', r)) :
    (now + w ≤ t → ∃ bal, r = .ok bal) ∧ (t < now + w → ∃ w', r = .wait w') := by
  obtain ⟨hw', -, hle, -, -⟩ := remove_wf b dec now hw h1 h2 b' _ h
  obtain ⟨-, -, hA, hB⟩ := C12_exact_wait b dec now w hw h1 h2 b' h hcap hfit
  rcases remove_spec b' dec t hw' (by omega) hte b'' r hr with ⟨h3, h4, -⟩ | ⟨h3, h4, -⟩
  · exact ⟨fun _ => ⟨_, h4⟩, fun hlt => by have := hB t ht hlt; omega⟩
  · exact ⟨fun hge => by have := hA t hge; omega, fun _ => h4⟩

/-- **C12 limits.** A removal larger than the capacity is refused at every time: no wait is ever
    long enough. -/
theorem C12_oversize_never (b : Bucket) (dec t : Nat) (hw : WF b) (hcap : b.capacity < dec)
    (h1 : b.last ≤ t) (hte : t ≤ emuMax) (b' : Bucket) (r : Res)
    (h : remove b dec t = some (b', r)) : ∃ w, r = .wait w := by
  rcases remove_spec b dec t hw h1 hte b' r h with ⟨h3, h4, -⟩ | ⟨h3, h4, -⟩
  · have : available b t ≤ b.capacity := by unfold available; omega
    omega
  · exact h4

/-- Removal never panics when the time is in range and the wait fits in a `SimulationTime`. -/
theorem remove_no_panic (b : Bucket) (dec now : Nat) (hw : WF b) (h1 : b.last ≤ now)
    (h2 : now ≤ emuMax) (hfit : b.interval * (dec / b.inc + 2) ≤ simMax) :
    ∃ b' r, remove b dec now = some (b', r) := by
  unfold remove
  rw [lazyRefill_spec b now hw h1 h2]
  simp only [Option.bind_eq_bind, Option.bind_some]
  by_cases hc : dec ≤ (refilled b now).balance
  · simp [hc]
  · simp only [hc, if_false]
    have : ∃ d, conformingDuration (refilled b now) dec
        (b.interval - (now - b.last) % b.interval) = some d := by
      unfold conformingDuration
      have e1 : (refilled b now).inc = b.inc := rfl
      have e2 : (refilled b now).interval = b.interval := rfl
      rw [e1, e2]
      simp only
      have hq : (dec - (refilled b now).balance) / b.inc ≤ dec / b.inc :=
        Nat.div_le_div_right (by omega)
      generalize hn : (if (dec - (refilled b now).balance) % b.inc > 0 then
        (dec - (refilled b now).balance) / b.inc + 1
        else (dec - (refilled b now).balance) / b.inc) = n
      have hnle : n ≤ dec / b.inc + 1 := by split at hn <;> omega
      split
      · exact ⟨_, rfl⟩
      · exact ⟨_, rfl⟩
      · have h3 : b.interval * (n - 1) ≤ b.interval * (dec / b.inc) :=
          Nat.mul_le_mul_left _ (Nat.sub_le_iff_le_add.mpr hnle)
        have h4 : b.interval * (dec / b.inc + 2) = b.interval * (dec / b.inc) + b.interval * 2 := by
          rw [Nat.mul_add]
        rw [satMul_some (by omega)]
        simp only [Option.bind_eq_bind, Option.bind_some]
        rw [satAdd_some (by omega)]
        exact ⟨_, rfl⟩
    obtain ⟨d, hd⟩ := this
    exact ⟨_, _, by rw [hd]; rfl⟩

/-- The bucket a relay uses for a configured bandwidth. -/
theorem create_spec (bps : Nat) (hb : bps ≤ u64Max) :
    ∃ b, create bps = some b ∧ WF b ∧ b.inc = max 1 (bps / 1000) ∧
      b.capacity = b.inc + 1500 ∧ b.balance = b.capacity ∧ b.interval = 1000000 ∧
      b.last = simStart := by
  have hs := simMax_eq
  have he := emuMax_eq
  have hst := simStart_eq
  have hu : u64Max = 18446744073709551615 := rfl
  have hpos : 0 < max 1 (bps / 1000) := by omega
  refine ⟨⟨max 1 (bps / 1000) + 1500, max 1 (bps / 1000) + 1500, max 1 (bps / 1000), 1000000,
    simStart⟩, ?_, ⟨hpos, ?_, ?_, ?_, ?_, ?_, ?_, ?_⟩, rfl, rfl, rfl, rfl, rfl⟩
  · unfold create newInner
    simp only
    rw [if_pos ⟨by omega, by omega, by omega⟩]
  all_goals simp
  all_goals omega

/-- A history never changes the parameters of the bucket. -/
theorem run_keep (c : Bucket) (l : List (Nat × Nat)) (rs : List Res) (c' : Bucket) (hw : WF c)
    (hs : (c.last :: l.map (·.1)).Pairwise (· ≤ ·)) (hm : ∀ o ∈ l, o.1 ≤ emuMax)
    (h : run c l = some (rs, c')) :
    c'.capacity = c.capacity ∧ c'.inc = c.inc ∧ c'.interval = c.interval := by
  induction l generalizing c rs with
  | nil => simp [run] at h; obtain ⟨-, rfl⟩ := h; exact ⟨rfl, rfl, rfl⟩
  | cons o os ih =>
    obtain ⟨t, d⟩ := o
    simp only [run, Option.bind_eq_bind] at h
    obtain ⟨⟨c1, r⟩, hr, h⟩ := Option.bind_eq_some_iff.mp h
    obtain ⟨⟨rs1, c2⟩, hrun, h⟩ := Option.bind_eq_some_iff.mp h
    simp at h; obtain ⟨rfl, rfl⟩ := h
    have hs' := List.pairwise_cons.mp hs
    have hlt : c.last ≤ t := hs'.1 t (by simp)
    have hte : t ≤ emuMax := hm (t, d) (by simp)
    obtain ⟨hw1, hl1, hle1, hlt1, hc1, hi1, hv1⟩ := remove_wf c d t hw hlt hte c1 r hr
    have hs1 : (c1.last :: os.map (·.1)).Pairwise (· ≤ ·) := by
      have h2 := List.pairwise_cons.mp hs'.2
      refine List.pairwise_cons.mpr ⟨fun x hx => ?_, h2.2⟩
      have := h2.1 x hx
      simp at this; omega
    obtain ⟨g1, g2, g3⟩ := ih c1 rs1 hw1 hs1 (fun o ho => hm o (by simp [ho])) hrun
    exact ⟨by omega, by omega, by omega⟩

/-- **C11 for relays.** In every window `[t0, t1]` after the start, a relay of bandwidth `bps ≥ 1000`
    bytes per second hands out tokens for at most `bps·(t1 - t0)/1s` bytes plus the constant burst
    `2·bps/1000 + 1500`. -/
theorem C11_relay_bound (bps : Nat) (hb : bps ≤ u64Max) (hb2 : 1000 ≤ bps) (b : Bucket)
    (hc : create bps = some b) (pre ops : List (Nat × Nat)) (t0 t1 : Nat)
    (hs : (simStart :: (pre ++ ops).map (·.1)).Pairwise (· ≤ ·))
    (hpre : ∀ o ∈ pre, o.1 ≤ t0) (hst : simStart ≤ t0)
    (hwin : ∀ o ∈ ops, t0 ≤ o.1 ∧ o.1 ≤ t1) (ht01 : t0 ≤ t1) (ht1 : t1 ≤ emuMax)
    (rs0 rs : List Res) (b1 b2 : Bucket) (h0 : run b pre = some (rs0, b1))
    (h : run b1 ops = some (rs, b2)) :
    1000000000 * accepted ops rs ≤ bps * (t1 - t0) + 1000000000 * (2 * (bps / 1000) + 1500) := by
  obtain ⟨b', hc', hw, hi, hcap, -, hv, hl⟩ := create_spec bps hb
  rw [hc] at hc'; simp at hc'; subst hc'
  have hsp := List.pairwise_cons.mp hs
  rw [List.map_append, List.pairwise_append] at hsp
  have hs0 : (b.last :: pre.map (·.1)).Pairwise (· ≤ ·) := by
    rw [hl]
    refine List.pairwise_cons.mpr ⟨fun x hx => hsp.1 x ?_, hsp.2.1⟩
    simp only [List.mem_append]; exact .inl hx
  obtain ⟨k, -, hk2, hw1, hk4⟩ := run_conserve b pre hw hs0
    (fun o ho => by have := hpre o ho; omega) rs0 b1 h0
  have hb1 : b1.last ≤ t0 := hk4 t0 (by omega) hpre
  obtain ⟨g1, g2, g3⟩ := run_keep b pre rs0 b1 hw hs0 (fun o ho => by have := hpre o ho; omega) h0
  have hbound := C11_rate_bound b1 ops t0 t1 hw1 hb1 hsp.2.2.1 hwin ht1 rs b2 h
  rw [g1, g2, g3, hcap, hv, hi] at hbound
  have hmax : max 1 (bps / 1000) = bps / 1000 := by omega
  rw [hmax] at hbound
  rw [Nat.mul_add] at hbound
  have hA : bps / 1000 * 1000 ≤ bps := Nat.div_mul_le_self _ _
  have hB : (t1 - t0) / 1000000 * 1000000 ≤ t1 - t0 := Nat.div_mul_le_self _ _
  have hC : (bps / 1000 * 1000) * ((t1 - t0) / 1000000 * 1000000) ≤ bps * (t1 - t0) :=
    Nat.mul_le_mul hA hB
  have hD : (bps / 1000 * 1000) * ((t1 - t0) / 1000000 * 1000000)
      = 1000000000 * (bps / 1000 * ((t1 - t0) / 1000000)) := by
    generalize bps / 1000 = x
    generalize (t1 - t0) / 1000000 = y
    rw [Nat.mul_mul_mul_comm]
    rw [Nat.mul_comm (x * y)]
  generalize bps / 1000 * ((t1 - t0) / 1000000) = z at *
  omega

/-- Below 1000 bytes per second the configured limit is not enforced: the relay's bucket refills at
    1000 bytes per second whatever the configured rate. -/
theorem C11_low_rate_not_enforced (bps : Nat) (hb : bps < 1000) :
    create bps = create 1000 := by
  unfold create
  have h1 : bps / 1000 = 0 := Nat.div_eq_of_lt hb
  rw [h1]; rfl

/-! ## Non-vacuity -/

/-- A well-formed bucket with partial balance. -/
def ex : Bucket := ⟨2500, 100, 1000, 1000000, simStart⟩

theorem ex_wf : WF ex := by
  refine ⟨?_, ?_, ?_, ?_, ?_, ?_, ?_, ?_⟩ <;> decide

/-- A refusal with wait, as in the hypotheses of C12: 2400 tokens wanted, 100 there, three refills
    needed, the first of which is 0.7 ms away. -/
example : remove ex 2400 (simStart + 300000)
    = some (ex, .wait 2700000) := by decide

example : remove ex 2400 (simStart + 3000000) = some (⟨2500, 100, 1000, 1000000, simStart + 3000000⟩, .ok 100) := by
  decide


example : run ex [(simStart + 1, 50), (simStart + 1000000, 1050), (simStart + 1000000, 1)] =
    some ([.ok 50, .ok 0, .wait 1000000], ⟨2500, 0, 1000, 1000000, simStart + 1000000⟩) := by decide +kernel

end Shadow.TB
