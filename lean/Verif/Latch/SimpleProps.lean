import Verif.Latch.Simple

/-!
# C39 for the simple latch

The contract (simple_latch.rs:7-12): the latch is opened again only after every waiter returned from its wait for the last time it
was opened.
-/
namespace Shadow.Latch.Simple

open Shadow.Base

/-- All waiters have passed every generation opened so far. -/
def allowed (s : St) : Act → Prop
  | .open => ∀ w ∈ s.ws, w.pc ≠ .gone → w.passed = s.opens
  | _ => True

inductive Run : St → Prop
  | init : Run .init
  | step {s s' : St} {a : Act} : Run s → allowed s a → step s a = some (.ok s') → Run s'

structure WInv (s : St) (w : Waiter) : Prop where
  gen : w.gen = w.passed % M
  range : w.pc ≠ .gone → w.passed ≤ s.opens ∧ s.opens ≤ w.passed + 1
  wt : ∀ v, w.pc = .wait v → v = w.gen
  sl : w.pc = .asleep → w.passed = s.opens ∨ s.waking = true

structure Inv (s : St) : Prop where
  gen : s.gen = s.opens % M
  ws : ∀ w ∈ s.ws, WInv s w

theorem succ_ne (n : Nat) : (n + 1) % M ≠ n % M := by
  unfold M
  omega

theorem diff_zero (n : Nat) : (n % M + M - n % M) % M = 0 := by
  unfold M
  omega

theorem diff_one (n : Nat) : ((n + 1) % M + M - n % M) % M = 1 := by
  unfold M
  omega

theorem mod_succ (n : Nat) : (n % M + 1) % M = (n + 1) % M := by
  unfold M
  omega

theorem winv_put {s : St} (hi : Inv s) {i : Nat} {w : Waiter} (hw : WInv s w) : Inv (s.put i w) :=
  ⟨hi.gen, forall_set (P := WInv (s.put i w)) (fun p hp => ⟨(hi.ws p hp).gen, (hi.ws p hp).range, (hi.ws p hp).wt, (hi.ws p hp).sl⟩) ⟨hw.gen, hw.range, hw.wt, hw.sl⟩ i⟩

theorem inv_step {s : St} (hi : Inv s) {a : Act} (ha : allowed s a) {r : R St} (h : step s a = some r) : ∃ s', r = .ok s' ∧ Inv s' := by
  cases a with
  | «open» =>
    simp only [allowed] at ha
    simp only [step] at h
    split at h
    · cases h
    · cases h
      refine ⟨_, rfl, by dsimp only; rw [hi.gen]; exact mod_succ _, ?_⟩
      intro w hw
      have h1 := hi.ws w hw
      refine ⟨h1.gen, ?_, h1.wt, fun _ => .inr rfl⟩
      intro hg
      have := ha w hw hg
      dsimp only
      omega
  | wakeAll =>
    simp only [step] at h
    split at h
    · cases h
      refine ⟨_, rfl, hi.gen, ?_⟩
      intro w' hw'
      dsimp only at hw'
      rw [List.mem_map] at hw'
      obtain ⟨w, hw, rfl⟩ := hw'
      have h1 := hi.ws w hw
      unfold Waiter.woken
      split
      · rename_i hp
        exact ⟨h1.gen, fun _ => h1.range (by rw [hp]; simp), (fun v hv => by cases hv), (fun hv => by cases hv)⟩
      · rename_i hp
        exact ⟨h1.gen, h1.range, h1.wt, fun hv => absurd hv hp⟩
    · cases h
  | waiter spin =>
    simp only [step] at h
    split at h
    · cases h
    · cases h
      refine ⟨_, rfl, hi.gen, ?_⟩
      intro w hw
      rcases List.mem_append.1 hw with hw | hw
      · have h1 := hi.ws w hw
        exact ⟨h1.gen, h1.range, h1.wt, h1.sl⟩
      · rw [List.mem_singleton] at hw
        subst hw
        refine ⟨hi.gen, fun _ => ?_, (fun v hv => by cases hv), (fun hv => by cases hv)⟩
        dsimp only
        omega
  | clone i =>
    simp only [step] at h
    cases hp : s.ws[i]? with
    | none => rw [hp] at h; cases h
    | some w =>
      rw [hp] at h
      dsimp only at h
      split at h
      · cases h
        refine ⟨_, rfl, hi.gen, ?_⟩
        intro w' hw'
        rcases List.mem_append.1 hw' with hw' | hw'
        · have h1 := hi.ws w' hw'
          exact ⟨h1.gen, h1.range, h1.wt, h1.sl⟩
        · rw [List.mem_singleton] at hw'
          subst hw'
          have h1 := hi.ws w' (List.mem_of_getElem? hp)
          exact ⟨h1.gen, h1.range, h1.wt, h1.sl⟩
      · cases h
  | drop i =>
    simp only [step] at h
    cases hp : s.ws[i]? with
    | none => rw [hp] at h; cases h
    | some w =>
      rw [hp] at h
      dsimp only at h
      split at h
      · cases h
        have h1 := hi.ws w (List.mem_of_getElem? hp)
        exact ⟨_, rfl, winv_put hi ⟨h1.gen, fun hg => absurd rfl hg, (fun v hv => by cases hv), (fun hv => by cases hv)⟩⟩
      · cases h
  | wait i =>
    simp only [step] at h
    cases hp : s.ws[i]? with
    | none => rw [hp] at h; cases h
    | some w =>
      rw [hp] at h
      dsimp only at h
      split at h
      · rename_i ho
        cases h
        have h1 := hi.ws w (List.mem_of_getElem? hp)
        exact ⟨_, rfl, winv_put hi ⟨h1.gen, fun _ => h1.range (by rw [ho]; simp), (fun v hv => by cases hv), (fun hv => by cases hv)⟩⟩
      · cases h
  | intr i =>
    simp only [step] at h
    cases hp : s.ws[i]? with
    | none => rw [hp] at h; cases h
    | some w =>
      rw [hp] at h
      dsimp only at h
      have h1 := hi.ws w (List.mem_of_getElem? hp)
      split at h
      · rename_i v ho
        cases h
        exact ⟨_, rfl, winv_put hi ⟨h1.gen, fun _ => h1.range (by rw [ho]; simp), (fun v hv => by cases hv), (fun hv => by cases hv)⟩⟩
      · rename_i ho
        cases h
        exact ⟨_, rfl, winv_put hi ⟨h1.gen, fun _ => h1.range (by rw [ho]; simp), (fun v hv => by cases hv), (fun hv => by cases hv)⟩⟩
      · cases h
  | run i =>
    simp only [step] at h
    cases hp : s.ws[i]? with
    | none => rw [hp] at h; cases h
    | some w =>
      rw [hp] at h
      dsimp only at h
      have h1 := hi.ws w (List.mem_of_getElem? hp)
      cases hpc : w.pc with
      | out => rw [hpc] at h; cases h
      | asleep => rw [hpc] at h; cases h
      | gone => rw [hpc] at h; cases h
      | load =>
        rw [hpc] at h
        dsimp only at h
        have hr := h1.range (by rw [hpc]; simp)
        by_cases he : s.opens = w.passed
        · have hd : (s.gen + M - w.gen) % M = 0 := by
            rw [hi.gen, h1.gen, he]
            exact diff_zero _
          have hl : look s.gen w = .ok { w with pc := if w.spin then .load else .wait s.gen } := by
            simp only [look, hd]
            rfl
          rw [hl] at h
          cases h
          refine ⟨_, rfl, winv_put hi ⟨h1.gen, fun _ => hr, ?_, ?_⟩⟩
          · intro v hv
            dsimp only at hv ⊢
            split at hv
            · cases hv
            · cases hv
              rw [hi.gen, h1.gen, he]
          · intro hv
            dsimp only at hv
            split at hv <;> cases hv
        · have he' : s.opens = w.passed + 1 := by omega
          have hd : (s.gen + M - w.gen) % M = 1 := by
            rw [hi.gen, h1.gen, he']
            exact diff_one _
          have hl : look s.gen w = .ok { w with gen := (w.gen + 1) % M, passed := w.passed + 1, pc := .out } := by
            simp only [look, hd]
            rfl
          rw [hl] at h
          cases h
          refine ⟨_, rfl, winv_put hi ⟨?_, fun _ => ?_, (fun v hv => by cases hv), (fun hv => by cases hv)⟩⟩
          · dsimp only
            rw [h1.gen]
            exact mod_succ _
          · dsimp only
            omega
      | wait v =>
        rw [hpc] at h
        dsimp only at h
        cases h
        have hr := h1.range (by rw [hpc]; simp)
        have hv := h1.wt v hpc
        refine ⟨_, rfl, winv_put hi ⟨h1.gen, fun _ => hr, ?_, ?_⟩⟩
        · intro v' hv'
          dsimp only at hv'
          split at hv' <;> cases hv'
        · intro hs
          dsimp only at hs ⊢
          split at hs
          · rename_i hg
            by_cases he : s.opens = w.passed
            · exact .inl he.symm
            · exfalso
              have he' : s.opens = w.passed + 1 := by omega
              rw [hv, hi.gen, h1.gen, he'] at hg
              exact succ_ne _ hg
          · cases hs

theorem run_inv {s : St} (hr : Run s) : Inv s := by
  induction hr with
  | init => exact ⟨rfl, fun w hw => absurd hw (by simp [St.init])⟩
  | step _ ha hs ih =>
    obtain ⟨s', h1, h2⟩ := inv_step ih ha hs
    cases h1
    exact h2

/-- **C39, simple latch.** No waiter is released before the latch was opened for its generation, and none falls behind: a waiter
    has passed all generations opened so far, or all but the last one. -/
theorem C39_open {s : St} (hr : Run s) {i : Nat} {w : Waiter} (hw : s.ws[i]? = some w) (hg : w.pc ≠ .gone) :
    w.passed = s.opens ∨ w.passed + 1 = s.opens := by
  have := ((run_inv hr).ws w (List.mem_of_getElem? hw)).range hg
  omega

/-- **C39, simple latch.** No waiter runs ahead of another by more than the generation being opened. -/
theorem C39_open_together {s : St} (hr : Run s) {i j : Nat} {v w : Waiter} (hv : s.ws[i]? = some v) (hw : s.ws[j]? = some w)
    (gv : v.pc ≠ .gone) (gw : w.pc ≠ .gone) : v.passed ≤ w.passed + 1 := by
  have := C39_open hr hv gv
  have := C39_open hr hw gw
  omega

/-- **C39, simple latch.** A call of `wait` returns only if the latch is open for it, and then counts one generation. -/
theorem C39_open_return {s s' : St} (hr : Run s) {a : Act} (h : step s a = some (.ok s')) {i : Nat} {w w' : Waiter}
    (hw : s.ws[i]? = some w) (hw' : s'.ws[i]? = some w') (hin : w.pc ≠ .out) (hout : w'.pc = .out) :
    a = .run i ∧ s.opens = w.passed + 1 ∧ w'.passed = w.passed + 1 := by
  have hi := run_inv hr
  have hput : ∀ (k : Nat) (u : Waiter), (s.put k u).ws[i]? = some w' → (u.pc ≠ .out → False) ∧ k = i ∧ u = w' := by
    intro k u hk
    simp only [St.put] at hk
    rw [List.getElem?_set] at hk
    split at hk
    · rename_i hki
      split at hk
      · have := Option.some.inj hk
        subst this
        exact ⟨fun hc => hc hout, hki, rfl⟩
      · cases hk
    · rw [hw] at hk
      cases hk
      exact absurd hout hin
  have happ : ∀ u : Waiter, (s.ws ++ [u])[i]? = some w' → False := by
    intro u hu
    have hlt : i < s.ws.length := by
      rw [List.getElem?_eq_some_iff] at hw
      exact hw.1
    rw [List.getElem?_append_left hlt, hw] at hu
    cases hu
    exact hin hout
  cases a with
  | «open» =>
    simp only [step] at h
    split at h
    · cases h
    · cases h
      dsimp only at hw'
      rw [hw] at hw'
      cases hw'
      exact absurd hout hin
  | wakeAll =>
    simp only [step] at h
    split at h
    · cases h
      dsimp only at hw'
      rw [List.getElem?_map, hw] at hw'
      simp only [Option.map_some, Option.some.injEq] at hw'
      subst hw'
      exfalso
      unfold Waiter.woken at hout
      split at hout
      · cases hout
      · exact hin hout
    · cases h
  | waiter spin =>
    simp only [step] at h
    split at h
    · cases h
    · cases h
      exact absurd (happ _ hw') (fun x => x)
  | clone k =>
    simp only [step] at h
    split at h
    · split at h
      · cases h
        exact absurd (happ _ hw') (fun x => x)
      · cases h
    · cases h
  | drop k =>
    simp only [step] at h
    split at h
    · split at h
      · cases h
        exact absurd (by simp) (hput _ _ hw').1
      · cases h
    · cases h
  | wait k =>
    simp only [step] at h
    split at h
    · split at h
      · cases h
        exact absurd (by simp) (hput _ _ hw').1
      · cases h
    · cases h
  | intr k =>
    simp only [step] at h
    split at h
    · split at h
      · cases h
        exact absurd (by simp) (hput _ _ hw').1
      · cases h
        exact absurd (by simp) (hput _ _ hw').1
      · cases h
    · cases h
  | run k =>
    simp only [step] at h
    cases hp : s.ws[k]? with
    | none => rw [hp] at h; cases h
    | some u =>
      rw [hp] at h
      dsimp only at h
      cases hpc : u.pc with
      | out => rw [hpc] at h; cases h
      | asleep => rw [hpc] at h; cases h
      | gone => rw [hpc] at h; cases h
      | wait v =>
        rw [hpc] at h
        dsimp only at h
        cases h
        exfalso
        refine (hput _ _ hw').1 ?_
        dsimp only
        split <;> simp
      | load =>
        rw [hpc] at h
        dsimp only at h
        cases hl : look s.gen u with
        | panic => rw [hl] at h; cases h
        | ok u' =>
          rw [hl] at h
          cases h
          obtain ⟨_, hki, hu⟩ := hput _ _ hw'
          subst hki
          subst hu
          rw [hw] at hp
          cases hp
          have h1 := hi.ws w (List.mem_of_getElem? hw)
          have hrg := h1.range (by rw [hpc]; simp)
          simp only [look] at hl
          split at hl
          · rename_i hd
            cases hl
            refine ⟨rfl, ?_, rfl⟩
            by_cases he : s.opens = w.passed
            · rw [hi.gen, h1.gen, he, diff_zero] at hd
              cases hd
            · omega
          · split at hl
            · cases hl
              exfalso
              dsimp only at hout
              split at hout <;> cases hout
            · cases hl

/-- **C39, simple latch.** No waiter is left asleep: one that sleeps although the latch was opened for it is about to be woken. -/
theorem C39_open_wake {s : St} (hr : Run s) {i : Nat} {w : Waiter} (hw : s.ws[i]? = some w) (hs : w.pc = .asleep) (hb : w.passed < s.opens) :
    s.waking = true := by
  rcases ((run_inv hr).ws w (List.mem_of_getElem? hw)).sl hs with h | h
  · omega
  · exact h

/-- **C39, simple latch.** Waking reaches all of them: afterwards nobody sleeps. -/
theorem C39_open_woken {s s' : St} (h : step s .wakeAll = some (.ok s')) {i : Nat} {w : Waiter} (hw : s'.ws[i]? = some w) : w.pc ≠ .asleep := by
  simp only [step] at h
  split at h
  · cases h
    dsimp only at hw
    rw [List.getElem?_map] at hw
    cases hp : s.ws[i]? with
    | none => rw [hp] at hw; cases hw
    | some u =>
      rw [hp] at hw
      simp only [Option.map_some, Option.some.injEq] at hw
      subst hw
      unfold Waiter.woken
      split
      · simp
      · assumption
  · cases h

/-- **C39, simple latch.** A waiter for which the latch was opened and that is awake in `wait` returns by its own steps: the next look at
    the latch ends the call. -/
theorem C39_open_progress {s : St} (hr : Run s) {i : Nat} {w : Waiter} (hw : s.ws[i]? = some w) (hb : w.passed < s.opens) :
    (w.pc = .load → step s (.run i) = some (.ok (s.put i { w with gen := (w.gen + 1) % M, passed := w.passed + 1, pc := .out }))) ∧
    (∀ v, w.pc = .wait v → step s (.run i) = some (.ok (s.put i { w with pc := .load }))) := by
  have hi := run_inv hr
  have h1 := hi.ws w (List.mem_of_getElem? hw)
  constructor
  · intro hpc
    have hrg := h1.range (by rw [hpc]; simp)
    have he' : s.opens = w.passed + 1 := by omega
    have hd : (s.gen + M - w.gen) % M = 1 := by
      rw [hi.gen, h1.gen, he']
      exact diff_one _
    have hl : look s.gen w = .ok { w with gen := (w.gen + 1) % M, passed := w.passed + 1, pc := .out } := by
      simp only [look, hd]
      rfl
    simp only [step, hw, hpc, hl]
    rfl
  · intro v hpc
    have hrg := h1.range (by rw [hpc]; simp)
    have he' : s.opens = w.passed + 1 := by omega
    have hne : s.gen ≠ v := by
      rw [h1.wt v hpc, hi.gen, h1.gen, he']
      exact succ_ne _
    simp only [step, hw, hpc]
    rw [if_neg hne]

/-- **C39, simple latch.** Nobody panics if the contract is kept, whatever the number of generations: the 32-bit generation may
    wrap around. -/
theorem C39_open_no_panic {s : St} (hr : Run s) {a : Act} (ha : allowed s a) : step s a ≠ some .panic := by
  intro h
  obtain ⟨s', h1, _⟩ := inv_step (run_inv hr) ha h
  cases h1

/-- **C39, simple latch.** If the contract is broken, a waiter left behind by two generations or more panics in `wait` (unless it is
    left behind by 2³² generations). -/
theorem C39_open_behind {s : St} {i : Nat} {w : Waiter} (hw : s.ws[i]? = some w) (hpc : w.pc = .load)
    (hs : s.gen = s.opens % M) (hg : w.gen = w.passed % M) (hb : w.passed + 2 ≤ s.opens) (hm : s.opens < w.passed + M) :
    step s (.run i) = some .panic := by
  have hd : (s.gen + M - w.gen) % M = s.opens - w.passed := by
    rw [hs, hg]
    unfold M at *
    omega
  have hl : look s.gen w = .panic := by
    have h1 : ¬ s.opens - w.passed = 1 := by omega
    have h0 : ¬ s.opens - w.passed = 0 := by omega
    simp only [look, hd]
    rw [if_neg h1, if_neg h0]
  simp only [step, hw, hpc, hl]
  rfl

/-! ## Examples -/

def exec (s : St) : List Act → Option St
  | [] => some s
  | a :: as => match step s a with
    | some (.ok s') => exec s' as
    | _ => none

def good (s : St) : List Act → Bool
  | [] => true
  | a :: as => (match a with | .open => s.ws.all (fun w => decide (w.pc = .gone) || decide (w.passed = s.opens)) | _ => true) &&
    match step s a with
    | some (.ok s') => good s' as
    | _ => false

theorem exec_run : ∀ (as : List Act) {s s' : St}, Run s → good s as = true → exec s as = some s' → Run s'
  | [], s, s', hr, _, h => by cases h; exact hr
  | a :: as, s, s', hr, hg, h => by
      simp only [exec] at h
      simp only [good, Bool.and_eq_true] at hg
      cases hs : step s a with
      | none => rw [hs] at h; cases h
      | some r =>
        cases r with
        | panic => rw [hs] at h; cases h
        | ok t =>
          rw [hs] at h hg
          refine exec_run as (.step hr ?_ hs) hg.2 h
          cases a with
          | «open» =>
            intro w hw hgone
            have := List.all_eq_true.1 hg.1 w hw
            simp only [Bool.or_eq_true, decide_eq_true_eq] at this
            rcases this with h1 | h1
            · exact absurd h1 hgone
            · exact h1
          | _ => trivial

/-- Two waiters sleep or spin, the latch opens, one of them is through before the futex is woken. -/
def acts : List Act := [.waiter false, .waiter true, .wait 0, .run 0, .run 0, .wait 1, .run 1, .open, .run 1]

def mid : St := ⟨1, 1, true, [⟨0, false, 0, .asleep⟩, ⟨1, true, 1, .out⟩]⟩

theorem mid_run : Run mid := exec_run acts .init (by decide +kernel) (by decide +kernel)

example : mid.waking = true := C39_open_wake mid_run (i := 0) rfl rfl (by decide)

example : exec mid [.wakeAll, .run 0, .open, .wakeAll, .wait 1, .run 1, .wait 0, .run 0] =
    some ⟨2, 2, false, [⟨2, false, 2, .out⟩, ⟨2, true, 2, .out⟩]⟩ := by decide +kernel

/-- Opening twice without waiting panics. -/
example : step ⟨2, 2, false, [⟨0, false, 0, .load⟩]⟩ (.run 0) = some .panic := C39_open_behind (w := ⟨0, false, 0, .load⟩) rfl rfl rfl rfl (by decide) (by decide)

end Shadow.Latch.Simple
