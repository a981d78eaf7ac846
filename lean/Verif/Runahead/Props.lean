import Verif.Runahead.Model

/-!
# C07: the runahead is positive, monotone after the first report, and order independent
-/
namespace Shadow.Runahead

set_option linter.unusedSimpArgs false

/-- The latencies reported in a history. -/
def reported : List Act → List Nat
  | [] => []
  | .report _ l :: as => l :: reported as
  | .advance _ :: as => reported as

/-- No worker is in the middle of a report. -/
def Quiescent (s : State) : Prop := ∀ i, (s.workers i).pc = .idle

/-- The latency a worker is currently reporting. -/
def pending (w : Worker) : Option Nat :=
  match w.pc with
  | .idle => none
  | .readCheck l => some l
  | .writeCheck l => some l

/-- `r` is accounted for: the shared minimum is at most `r`, or some worker is still about to
    store a value of at most `r`. -/
def Covered (s : State) (r : Nat) : Prop :=
  (∃ m, s.minUsed = some m ∧ m ≤ r) ∨ (∃ i l, pending (s.workers i) = some l ∧ l ≤ r)

structure Inv (c : Cfg) (s : State) (rep : List Nat) : Prop where
  used : ∀ m, s.minUsed = some m → m ∈ rep ∧ c.dynamic = true
  cached : ∀ i x, (s.workers i).cache = some x → x ∈ rep
  pend : ∀ i l, pending (s.workers i) = some l → l ∈ rep ∧ c.dynamic = true
  cover : c.dynamic = true → ∀ r ∈ rep, Covered s r
  pos : ∀ r ∈ rep, 0 < r

theorem inv_init (c : Cfg) : Inv c State.init [] :=
  ⟨by simp [State.init], by simp [State.init], by simp [State.init, pending],
   by simp, by simp⟩

/-- What a step adds to the reports. -/
def reportedOne : Act → List Nat
  | .report _ l => [l]
  | .advance _ => []

theorem covered_mono {s s' : State} {r : Nat} (h : Covered s r)
    (hm : ∀ m, s.minUsed = some m → ∃ m', s'.minUsed = some m' ∧ m' ≤ m)
    (hp : ∀ i l, pending (s.workers i) = some l →
      (∃ m', s'.minUsed = some m' ∧ m' ≤ l) ∨ ∃ j l', pending (s'.workers j) = some l' ∧ l' ≤ l) :
    Covered s' r := by
  rcases h with ⟨m, h1, h2⟩ | ⟨i, l, h1, h2⟩
  · obtain ⟨m', h3, h4⟩ := hm m h1
    exact .inl ⟨m', h3, by omega⟩
  · rcases hp i l h1 with ⟨m', h3, h4⟩ | ⟨j, l', h3, h4⟩
    · exact .inl ⟨m', h3, by omega⟩
    · exact .inr ⟨j, l', h3, by omega⟩

theorem step_inv (c : Cfg) (s s' : State) (rep : List Nat) (a : Act) (hi : Inv c s rep)
    (h : step c s a = some s') : Inv c s' (rep ++ reportedOne a) := by
  cases a with
  | report i l =>
    simp only [step, reportedOne] at *
    split at h
    case h_2 => simp at h
    rename_i hpc
    split at h
    · simp at h
    rename_i hl
    split at h
    · rename_i hcache
      split at h
      · rename_i hd
        simp at h; subst h
        refine ⟨?_, ?_, ?_, ?_, ?_⟩
        · intro m hm; have := hi.used m hm; simp [this]
        · intro j x hx
          simp only [State.setWorker] at hx
          split at hx
          · simp at hx; simp [hx]
          · simp [hi.cached j x hx]
        · intro j x hx
          simp only [State.setWorker] at hx
          split at hx
          · simp [pending] at hx; simp [hx, hd]
          · have := hi.pend j x hx; simp [this]
        · intro _ r hr
          simp at hr
          rcases hr with hr | hr
          · refine covered_mono (hi.cover hd r hr) (fun m hm => ⟨m, hm, Nat.le_refl _⟩) ?_
            intro j x hx
            refine .inr ⟨j, x, ?_, Nat.le_refl _⟩
            simp only [State.setWorker]
            split
            · rename_i hji; subst hji; simp [pending, hpc] at hx
            · exact hx
          · exact .inr ⟨i, l, by simp [State.setWorker, pending], by omega⟩
        · intro r hr; simp at hr
          rcases hr with hr | hr
          · exact hi.pos r hr
          · omega
      · rename_i hd
        simp at h; subst h
        refine ⟨?_, ?_, ?_, ?_, ?_⟩
        · intro m hm; have := hi.used m hm; simp [this]
        · intro j x hx
          simp only [State.setWorker] at hx
          split at hx
          · simp at hx; simp [hx]
          · simp [hi.cached j x hx]
        · intro j x hx
          simp only [State.setWorker] at hx
          split at hx
          · simp [pending] at hx
          · have := hi.pend j x hx; simp [this]
        · intro hd'; exact absurd hd' hd
        · intro r hr; simp at hr
          rcases hr with hr | hr
          · exact hi.pos r hr
          · omega
    · rename_i hcache
      simp at h; subst h
      simp at hcache
      refine ⟨?_, ?_, ?_, ?_, ?_⟩
      · intro m hm; have := hi.used m hm; simp [this]
      · intro j x hx; simp [hi.cached j x hx]
      · intro j x hx; have := hi.pend j x hx; simp [this]
      · intro hd r hr
        simp at hr
        rcases hr with hr | hr
        · exact hi.cover hd r hr
        · obtain ⟨h1, h2⟩ := hcache
          cases hx : (s.workers i).cache with
          | none => simp [hx] at h1
          | some x =>
            simp [hx] at h2
            have := hi.cover hd x (hi.cached i x hx)
            rcases this with ⟨m, h3, h4⟩ | ⟨j, l', h3, h4⟩
            · exact .inl ⟨m, h3, by omega⟩
            · exact .inr ⟨j, l', h3, by omega⟩
      · intro r hr; simp at hr
        rcases hr with hr | hr
        · exact hi.pos r hr
        · omega
  | advance i =>
    simp only [step, reportedOne, List.append_nil] at *
    split at h
    · simp at h
    · rename_i l hpc
      have hpend : pending (s.workers i) = some l := by simp [pending, hpc]
      have hd := (hi.pend i l hpend).2
      split at h
      · rename_i hsu
        simp at h; subst h
        refine ⟨hi.used, ?_, ?_, ?_, hi.pos⟩
        · intro j x hx
          simp only [State.setWorker] at hx
          split at hx
          · simp at hx; exact hi.cached i x hx
          · exact hi.cached j x hx
        · intro j x hx
          simp only [State.setWorker] at hx
          split at hx
          · simp [pending] at hx; subst hx; exact hi.pend i l hpend
          · exact hi.pend j x hx
        · intro _ r hr
          refine covered_mono (hi.cover hd r hr) (fun m hm => ⟨m, hm, Nat.le_refl _⟩) ?_
          intro j x hx
          refine .inr ⟨j, x, ?_, Nat.le_refl _⟩
          simp only [State.setWorker]
          split
          · rename_i hji; subst hji; rw [hpend] at hx; simpa [pending] using hx
          · exact hx
      · rename_i hsu
        simp at h; subst h
        refine ⟨hi.used, ?_, ?_, ?_, hi.pos⟩
        · intro j x hx
          simp only [State.setWorker] at hx
          split at hx
          · simp at hx; exact hi.cached i x hx
          · exact hi.cached j x hx
        · intro j x hx
          simp only [State.setWorker] at hx
          split at hx
          · simp [pending] at hx
          · exact hi.pend j x hx
        · intro _ r hr
          refine covered_mono (hi.cover hd r hr) (fun m hm => ⟨m, hm, Nat.le_refl _⟩) ?_
          intro j x hx
          by_cases hji : j = i
          · subst hji
            rw [hpend] at hx; simp at hx; subst hx
            unfold shouldUpdate at hsu
            cases hm : s.minUsed with
            | none => simp [hm] at hsu
            | some m =>
              simp [hm] at hsu
              exact .inl ⟨m, hm, hsu⟩
          · refine .inr ⟨j, x, ?_, Nat.le_refl _⟩
            simp only [State.setWorker, if_neg hji]; exact hx
    · rename_i l hpc
      have hpend : pending (s.workers i) = some l := by simp [pending, hpc]
      have hd := (hi.pend i l hpend).2
      split at h
      · rename_i hsu
        simp at h; subst h
        refine ⟨?_, ?_, ?_, ?_, hi.pos⟩
        · intro m hm; simp at hm; subst hm; exact hi.pend i l hpend
        · intro j x hx
          simp only [State.setWorker] at hx
          split at hx
          · simp at hx; exact hi.cached i x hx
          · exact hi.cached j x hx
        · intro j x hx
          simp only [State.setWorker] at hx
          split at hx
          · simp [pending] at hx
          · exact hi.pend j x hx
        · intro _ r hr
          refine covered_mono (hi.cover hd r hr) ?_ ?_
          · intro m hm
            refine ⟨l, rfl, ?_⟩
            unfold shouldUpdate at hsu
            simp [hm] at hsu; omega
          · intro j x hx
            by_cases hji : j = i
            · subst hji; rw [hpend] at hx; simp at hx; subst hx
              exact .inl ⟨l, rfl, Nat.le_refl _⟩
            · refine .inr ⟨j, x, ?_, Nat.le_refl _⟩
              simp only [State.setWorker, if_neg hji]; exact hx
      · rename_i hsu
        simp at h; subst h
        refine ⟨hi.used, ?_, ?_, ?_, hi.pos⟩
        · intro j x hx
          simp only [State.setWorker] at hx
          split at hx
          · simp at hx; exact hi.cached i x hx
          · exact hi.cached j x hx
        · intro j x hx
          simp only [State.setWorker] at hx
          split at hx
          · simp [pending] at hx
          · exact hi.pend j x hx
        · intro _ r hr
          refine covered_mono (hi.cover hd r hr) (fun m hm => ⟨m, hm, Nat.le_refl _⟩) ?_
          intro j x hx
          by_cases hji : j = i
          · subst hji
            rw [hpend] at hx; simp at hx; subst hx
            unfold shouldUpdate at hsu
            cases hm : s.minUsed with
            | none => simp [hm] at hsu
            | some m =>
              simp [hm] at hsu
              exact .inl ⟨m, hm, hsu⟩
          · refine .inr ⟨j, x, ?_, Nat.le_refl _⟩
            simp only [State.setWorker, if_neg hji]; exact hx

theorem exec_inv (c : Cfg) (s s' : State) (rep : List Nat) (as : List Act) (hi : Inv c s rep)
    (h : exec c s as = some s') : Inv c s' (rep ++ reported as) := by
  induction as generalizing s rep with
  | nil => simp [exec] at h; subst h; simpa [reported] using hi
  | cons a as ih =>
    simp only [exec] at h
    split at h
    · simp at h
    · rename_i s1 h1
      have := ih s1 _ (step_inv c s s1 rep a hi h1) h
      cases a <;> simpa [reported, reportedOne] using this

/-- `m` is the least element of `l`. -/
def IsLeast (m : Nat) (l : List Nat) : Prop := m ∈ l ∧ ∀ x ∈ l, m ≤ x

/-- **C07 (value).** Whatever the interleaving of the workers, once no report is in progress the
    stored latency is the least latency ever reported when dynamic runahead is on (and nothing
    when none was reported or when it is off). -/
theorem C07_value (c : Cfg) (s : State) (as : List Act) (h : exec c State.init as = some s)
    (hq : Quiescent s) :
    (c.dynamic = true → ∀ m, s.minUsed = some m ↔ IsLeast m (reported as)) ∧
    (c.dynamic = false → s.minUsed = none) := by
  have hi := exec_inv c _ s [] as (inv_init c) h
  simp only [List.nil_append] at hi
  have hcov : c.dynamic = true → ∀ r ∈ reported as, ∃ m, s.minUsed = some m ∧ m ≤ r := by
    intro hd r hr
    rcases hi.cover hd r hr with h1 | ⟨i, l, h1, -⟩
    · exact h1
    · simp [pending, hq i] at h1
  constructor
  · intro hd m
    constructor
    · intro hm
      refine ⟨(hi.used m hm).1, fun x hx => ?_⟩
      obtain ⟨m', h1, h2⟩ := hcov hd x hx
      rw [hm] at h1; simp at h1; omega
    · intro ⟨h1, h2⟩
      obtain ⟨m', h3, h4⟩ := hcov hd m h1
      have := h2 m' (hi.used m' h3).1
      rw [h3]; congr 1; omega
  · intro hd
    cases hm : s.minUsed with
    | none => rfl
    | some m => have := (hi.used m hm).2; simp [hd] at this

/-- **C07 (order independence).** Two histories that report the same set of latencies, in any
    order, on any workers and with any interleaving of the critical sections, end with the same
    runahead. -/
theorem C07_order_independent (c : Cfg) (s1 s2 : State) (as1 as2 : List Act)
    (h1 : exec c State.init as1 = some s1) (h2 : exec c State.init as2 = some s2)
    (hq1 : Quiescent s1) (hq2 : Quiescent s2)
    (hsame : ∀ l, l ∈ reported as1 ↔ l ∈ reported as2) :
    c.get s1.minUsed = c.get s2.minUsed := by
  have v1 := C07_value c s1 as1 h1 hq1
  have v2 := C07_value c s2 as2 h2 hq2
  have : s1.minUsed = s2.minUsed := by
    cases hd : c.dynamic with
    | false => rw [v1.2 hd, v2.2 hd]
    | true =>
      have hl : ∀ m, IsLeast m (reported as1) ↔ IsLeast m (reported as2) := by
        intro m; unfold IsLeast; simp [hsame]
      apply Option.ext
      intro m
      rw [v1.1 hd m, v2.1 hd m, hl m]
  rw [this]

/-- **C07 (positive).** The runahead is never zero, at any moment of any history (the assertion
    at controller.rs:101 cannot fail). -/
theorem C07_positive (c : Cfg) (dyn : Bool) (mp : Nat) (cf : Option Nat)
    (hc : Cfg.new dyn mp cf = some c) (s : State) (as : List Act)
    (h : exec c State.init as = some s) : 0 < c.get s.minUsed := by
  have hi := exec_inv c _ s [] as (inv_init c) h
  unfold Cfg.new at hc
  split at hc
  · simp at hc
  · rename_i hmp
    simp at hc; subst hc
    unfold Cfg.get
    cases hm : s.minUsed with
    | none => simp only [Option.getD_none]; omega
    | some m =>
      have := hi.pos m (hi.used m hm).1
      simp only [Option.getD_some]; omega

/-- **C07 (bound).** With dynamic runahead and no larger configured minimum, the runahead after a
    quiescent history is at most every latency reported so far. -/
theorem C07_at_most_reported (c : Cfg) (s : State) (as : List Act)
    (h : exec c State.init as = some s) (hq : Quiescent s) (hd : c.dynamic = true)
    (l : Nat) (hl : l ∈ reported as) (hcfg : c.config.getD 0 ≤ l) : c.get s.minUsed ≤ l := by
  have v := (C07_value c s as h hq).1 hd
  have hi := exec_inv c _ s [] as (inv_init c) h
  simp only [List.nil_append] at hi
  rcases hi.cover hd l hl with ⟨m, h1, h2⟩ | ⟨i, x, h1, -⟩
  · unfold Cfg.get; rw [h1]; simp only [Option.getD_some]; omega
  · simp [pending, hq i] at h1

/-- **C07 (static mode).** Without dynamic runahead the value never changes: the larger of the
    smallest possible latency and the configured minimum. -/
theorem C07_static (c : Cfg) (s : State) (as : List Act)
    (h : exec c State.init as = some s) (hd : c.dynamic = false) :
    c.get s.minUsed = max c.minPossible (c.config.getD 0) := by
  have hi := exec_inv c _ s [] as (inv_init c) h
  cases hm : s.minUsed with
  | none => rfl
  | some m => have := (hi.used m hm).2; simp [hd] at this

theorem step_mono (c : Cfg) (s s' : State) (a : Act) (h : step c s a = some s') (m : Nat)
    (hm : s.minUsed = some m) : ∃ m', s'.minUsed = some m' ∧ m' ≤ m := by
  cases a with
  | report i l =>
    simp only [step] at h
    split at h
    · split at h
      · simp at h
      · split at h
        · split at h <;> (simp at h; subst h; exact ⟨m, by simpa [State.setWorker] using hm, Nat.le_refl _⟩)
        · simp at h; subst h; exact ⟨m, hm, Nat.le_refl _⟩
    · simp at h
  | advance i =>
    simp only [step] at h
    split at h
    · simp at h
    · split at h <;> (simp at h; subst h; exact ⟨m, by simpa [State.setWorker] using hm, Nat.le_refl _⟩)
    · rename_i l _
      split at h
      · rename_i hsu
        simp at h; subst h
        refine ⟨l, rfl, ?_⟩
        simp [shouldUpdate, hm] at hsu; omega
      · simp at h; subst h; exact ⟨m, by simpa [State.setWorker] using hm, Nat.le_refl _⟩

/-- **C07 (monotone).** Once a latency has been stored, the runahead never increases again. -/
theorem C07_never_increases (c : Cfg) (s s' : State) (as : List Act)
    (h : exec c s as = some s') (hs : s.minUsed ≠ none) :
    c.get s'.minUsed ≤ c.get s.minUsed := by
  obtain ⟨m, hm⟩ := Option.ne_none_iff_exists'.mp hs
  suffices ∃ m', s'.minUsed = some m' ∧ m' ≤ m by
    obtain ⟨m', h1, h2⟩ := this
    unfold Cfg.get; rw [h1, hm]; simp only [Option.getD_some]; omega
  clear hs
  induction as generalizing s m with
  | nil => simp [exec] at h; subst h; exact ⟨m, hm, Nat.le_refl _⟩
  | cons a as ih =>
    simp only [exec] at h
    split at h
    · simp at h
    · rename_i s1 h1
      obtain ⟨m1, h2, h3⟩ := step_mono c s s1 a h1 m hm
      obtain ⟨m2, h4, h5⟩ := ih s1 h m1 h2
      exact ⟨m2, h4, by omega⟩

/-- Finding: the runahead *can* increase once.  Before the first report it is the smallest
    possible latency; the first report raises it to the reported latency. -/
theorem C07_first_report_can_increase :
    ∃ (c : Cfg) (as : List Act) (s : State), Cfg.new true 1000000 none = some c ∧
      exec c State.init as = some s ∧ Quiescent s ∧
      c.get State.init.minUsed < c.get s.minUsed := by
  let c : Cfg := ⟨true, 1000000, none⟩
  refine ⟨c, [.report 0 5000000, .advance 0, .advance 0], _, rfl, rfl, ?_, ?_⟩
  · intro i
    simp only [State.setWorker]
    split
    · rfl
    · simp [State.init]
  · decide

/-- Non-vacuity: three workers race, the smaller value is written although the larger one passed
    its read check first; the result is the least reported latency. -/
example : ∃ s, exec ⟨true, 1, none⟩ State.init
    [.report 0 9, .report 1 4, .advance 0, .advance 1, .advance 1, .advance 0, .report 2 4,
     .advance 2] = some s ∧ s.minUsed = some 4 ∧ (s.workers 0).pc = .idle ∧
     (s.workers 1).pc = .idle ∧ (s.workers 2).pc = .idle := by
  refine ⟨_, rfl, rfl, rfl, rfl, rfl⟩

end Shadow.Runahead
