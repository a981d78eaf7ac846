import Verif.Sim.Props

/-!
# C09 (clock of a host never goes back) and the witnesses for C03-C09
-/
namespace Shadow.Sim
open Shadow.Ev

set_option linter.unusedSectionVars false
set_option linter.unusedSimpArgs false

variable {H P : Type} [DecidableEq P]

/-- Code that, started at time `now`, never asks for a task before its current time. -/
def Future : Nat → Code H P → Prop
  | _, .done _ => True
  | now, .schedule t _ k => now ≤ t ∧ ∀ b, Future now (k b)
  | now, .send _ _ _ k => Future now k
  | now, .advance d k => Future (now + d) (k true) ∧ Future now (k false)
  | now, .runahead k => ∀ t, Future now (k t)

/-- No queued event is before the host's clock, and running code only schedules forward. -/
def Fwd (h : Host H P) : Prop :=
  (∀ e ∈ held h.phase ++ h.queue.events, h.clock ≤ e.time) ∧
  ∀ now c, h.phase = .exec now c → Future now c

theorem lstep_fwd {cfg : Cfg} {prog : Prog H P} {lo re id : Nat} {h h' : Host H P} {out : Out P}
    (hprog : ∀ id st e, Future e.time (prog.run id st e))
    (hi : HInv cfg lo re id h) (hf : Fwd h) (hs : lstep cfg prog re id h = some (h', out)) :
    Fwd h' ∧ h.clock ≤ h'.clock := by
  obtain ⟨hq, hc⟩ := hf
  cases lstep_cases hs with
  | move p hp hp' heq ho hx hb hw hl =>
    subst heq
    refine ⟨⟨by simpa [hp, hp'] using hq, ?_⟩, Nat.le_refl _⟩
    intro now c hpc
    obtain ⟨c0, h1, h2⟩ := hx now c hpc
    have h3 := hc now c0 h1
    rcases h2 with ⟨d, k, rfl, rfl⟩ | ⟨k, rfl, rfl⟩ | ⟨dst, p, lat, rfl⟩
    · exact h3.2
    · exact h3 _
    · exact h3
  | finish now st hp heq ho =>
    subst heq
    exact ⟨⟨by simpa [hp] using hq, by simp⟩, Nat.le_refl _⟩
  | pop x q hp ht hpop heq ho =>
    subst heq
    have hd : DistinctIds h.queue.events := distinct_queue hi
    obtain ⟨hperm, -, -, -⟩ := pop_before hd hpop
    refine ⟨⟨?_, by simp⟩, Nat.le_refl _⟩
    intro e he
    apply hq e
    simp only [hp, held_loop, List.nil_append]
    exact hperm.mem_iff.mp (by simpa using he)
  | drop x hp hlate heq ho =>
    subst heq
    refine ⟨⟨fun e he => hq e (by simp at he; simp [he]), by simp⟩, Nat.le_refl _⟩
  | repush x q d hd hp hq' hl ht heq ho =>
    subst heq
    refine ⟨⟨?_, by simp⟩, Nat.le_refl _⟩
    intro e he
    simp [hq'] at he
    rcases he with rfl | he
    · have := hq x (by simp [hp]); simp only; omega
    · exact hq e (by simp [he])
  | start x hp hd heq ho =>
    subst heq
    have hx := hq x (by simp [hp])
    refine ⟨⟨?_, ?_⟩, hx⟩
    · intro e he
      simp at he
      exact before_time (hi.heldMin x (by simp [hp]) e he)
    · intro now c hpc
      simp at hpc; obtain ⟨rfl, rfl⟩ := hpc
      exact hprog _ _ _
  | refused now t p k hp ht heq ho =>
    subst heq
    refine ⟨⟨by simpa [hp] using hq, ?_⟩, Nat.le_refl _⟩
    intro now' c hpc
    simp at hpc; obtain ⟨rfl, rfl⟩ := hpc
    exact (hc _ _ hp).2 _
  | push now t p k q hp ht hle hq' hl heq ho =>
    subst heq
    have h1 := hc _ _ hp
    refine ⟨⟨?_, ?_⟩, Nat.le_refl _⟩
    · intro e he
      simp [hq'] at he
      rcases he with rfl | he
      · have := (hi.execNow _ _ hp).1
        have := h1.1
        simp only; omega
      · exact hq e (by simp [he])
    · intro now' c hpc
      simp at hpc; obtain ⟨rfl, rfl⟩ := hpc
      exact h1.2 _
  | send now dst lat p k hp hn hdst hlat e he' heq ho =>
    subst heq
    refine ⟨⟨by simpa [hp] using hq, ?_⟩, Nat.le_refl _⟩
    intro now' c hpc
    simp at hpc; obtain ⟨rfl, rfl⟩ := hpc
    have h1 : Future now (.send dst p lat k) := hc _ _ hp
    exact h1
  | advance now d k hp hle heq ho =>
    subst heq
    refine ⟨⟨?_, ?_⟩, ?_⟩
    · intro e he
      have := maxRunahead_le_event re h.queue e (by simpa using he)
      simp only; omega
    · intro now' c hpc
      simp at hpc; obtain ⟨rfl, rfl⟩ := hpc
      exact (hc _ _ hp).1
    · have := (hi.execNow _ _ hp).1; simp only; omega

theorem step_fwd {cfg : Cfg} {prog : Prog H P} {lo re : Nat} {r : Nat → Host H P}
    {mu0 : Option Nat} {g g' : G H P} {a : Act}
    (hprog : ∀ id st e, Future e.time (prog.run id st e))
    (hi : RInv cfg prog lo re r mu0 g) (hf : ∀ id, id < cfg.n → Fwd (g.hosts id))
    (hs : step cfg prog re g a = some g') :
    ∀ id, id < cfg.n → Fwd (g'.hosts id) ∧ (g.hosts id).clock ≤ (g'.hosts id).clock := by
  intro j hj
  cases a with
  | claim i id =>
    simp only [step] at hs
    split at hs
    · simp at hs
    split at hs
    · split at hs
      · rename_i hph
        simp at hs; subst hs
        simp only [setHost]
        split
        · subst j
          have := hf id hj
          refine ⟨⟨?_, by simp⟩, Nat.le_refl _⟩
          have h1 := this.1; simpa [hph] using h1
        · exact ⟨hf j hj, Nat.le_refl _⟩
      · simp at hs
    · simp at hs
  | act i =>
    simp only [step] at hs
    split at hs
    · simp at hs
    split at hs
    · simp at hs
    rename_i _ th hth _ id hcur
    obtain ⟨hid, -, -⟩ := hi.oinv.own i th id hth hcur
    split at hs
    · simp at hs
    · rename_i h' hl
      simp at hs; subst hs
      have := lstep_fwd hprog (hi.core.host id hid) (hf id hid) hl
      simp only [setHost]
      split
      · subst j; exact this
      · exact ⟨hf j hj, Nat.le_refl _⟩
    · rename_i h' dst lat e hl
      have h1 := lstep_fwd hprog (hi.core.host id hid) (hf id hid) hl
      have h2 := (lstep_data (distinct_queue (hi.core.host id hid)) hl).2.2.2 dst lat e rfl
      rw [deliver_ok hi.core hid hl] at hs
      simp only [Option.some.injEq] at hs
      subst hs
      -- the host before the delivery
      have hmid : ∀ x, x < cfg.n → Fwd (setHost g.hosts id h' x) ∧
          (g.hosts x).clock ≤ (setHost g.hosts id h' x).clock ∧
          (setHost g.hosts id h' x).queue.events = (g.hosts x).queue.events ∧
          (setHost g.hosts id h' x).clock ≤ re := by
        intro x hx
        simp only [setHost]
        split
        · subst x
          refine ⟨h1.1, h1.2, by rw [h2.2.2.2.2.1], ?_⟩
          have hi' := (hi.core.host id hid).clk
          have : h'.clock = (g.hosts id).clock := by
            cases lstep_cases hl with
            | send _ _ _ _ _ _ _ _ _ _ _ heq _ => rw [heq]
            | move _ _ _ _ ho | finish _ _ _ _ ho | pop _ _ _ _ _ _ ho | drop _ _ _ _ ho
            | repush _ _ _ _ _ _ _ _ _ ho | start _ _ _ _ ho | refused _ _ _ _ _ _ _ ho
            | push _ _ _ _ _ _ _ _ _ _ _ ho | advance _ _ _ _ _ _ ho => simp at ho
          omega
        · exact ⟨hf x hx, Nat.le_refl _, rfl, (hi.core.host x hx).clk⟩
      obtain ⟨m1, m2, m3, m4⟩ := hmid j hj
      by_cases hjd : j = dst
      · subst j
        simp only [setHost, if_true] at m1 m2 m3 m4 ⊢
        refine ⟨⟨?_, m1.2⟩, m2⟩
        intro x hx
        simp at hx
        rcases hx with hx | rfl | hx
        · exact m1.1 x (by simp [hx])
        · exact Nat.le_trans m4 h2.2.1
        · apply m1.1 x
          rw [m3]; simp [hx]
      · have : setHost (setHost g.hosts id h') dst
            { setHost g.hosts id h' dst with queue := ⟨e :: (g.hosts dst).queue.events,
                (g.hosts dst).queue.lastPopped⟩ } j = setHost g.hosts id h' j := by
          rw [setHost, if_neg hjd]
        simp only [this]
        exact ⟨m1, m2⟩

theorem steps_fwd {cfg : Cfg} {prog : Prog H P} {lo re : Nat} {r : Nat → Host H P}
    {mu0 : Option Nat} {g g' : G H P}
    (hprog : ∀ id st e, Future e.time (prog.run id st e))
    (hi : RInv cfg prog lo re r mu0 g) (hf : ∀ id, id < cfg.n → Fwd (g.hosts id))
    (hs : Steps cfg prog re g g') :
    ∀ id, id < cfg.n → Fwd (g'.hosts id) ∧ (g.hosts id).clock ≤ (g'.hosts id).clock := by
  induction hs with
  | refl => exact fun id hid => ⟨hf id hid, Nat.le_refl _⟩
  | tail a h1 h2 ih =>
    intro id hid
    have := step_fwd hprog (steps_rinv h1 hi) (fun j hj => (ih j hj).1) h2 id hid
    exact ⟨this.1, Nat.le_trans (ih id hid).2 this.2⟩

/-- Between rounds: no queued event is before the clock. -/
def FwdWorld (n : Nat) (w : World H P) : Prop :=
  ∀ id, id < n → ∀ e ∈ (w.hosts id).queue.events, (w.hosts id).clock ≤ e.time

theorem start_fwd {n : Nat} {w : World H P} (k : Nat) (h : FwdWorld n w) :
    ∀ id, id < n → Fwd ((startRound w k).hosts id) := by
  intro id hid
  exact ⟨by simpa [startRound] using h id hid, by simp [startRound]⟩

theorem run_fwd {cfg : Cfg} {prog : Prog H P} {w w' : World H P} {win : Option (Nat × Nat)}
    {wins : List (Nat × Nat)} {win' : Option (Nat × Nat)}
    (hprog : ∀ id st e, Future e.time (prog.run id st e))
    (hr : ∀ a b, win = some (a, b) → Ready cfg.n a w ∧ a < b) (hf : FwdWorld cfg.n w)
    (h : Run cfg prog w win wins w' win') :
    FwdWorld cfg.n w' ∧ ∀ id, id < cfg.n → (w.hosts id).clock ≤ (w'.hosts id).clock := by
  induction h with
  | nil => exact ⟨hf, fun _ _ => Nat.le_refl _⟩
  | @cons w wm w1 win winm win1 wins r h ih =>
    obtain ⟨ha, hlt⟩ := hr win.1 win.2 rfl
    have hm : FwdWorld cfg.n wm ∧ ∀ id, id < cfg.n → (w.hosts id).clock ≤ (wm.hosts id).clock := by
      clear ih h
      generalize winm = wx at r
      cases r with
      | mk k g s c =>
        have := steps_fwd hprog (start_rinv k ha hlt (sameWorld_refl _ w)) (start_fwd k hf) s
        refine ⟨fun id hid e he => (this id hid).1.1 e ?_, fun id hid => (this id hid).2⟩
        simp only at he
        simp [he]
    obtain ⟨h1, h2⟩ := ih (by
      intro a b hab
      subst hab
      obtain ⟨c1, -, -, c2, -⟩ := round_ready ha hlt r
      exact ⟨c1, c2⟩) hm.1
    exact ⟨h1, fun id hid => Nat.le_trans (hm.2 id hid) (h2 id hid)⟩

/-- **C09 (clock).** If no task asks for a time before its own current time, then in every
    reachable state every queued event of a host is at or after the host's clock, and no step of
    any thread moves any host's clock back. -/
theorem C09_clock_monotone {cfg : Cfg} {prog : Prog H P} {w0 w : World H P} {start : Nat}
    {win : Nat × Nat} {g g' : G H P} {a : Act} (h0 : Initial cfg.n start w0)
    (hse : start < cfg.simEnd) (hprog : ∀ id st e, Future e.time (prog.run id st e))
    (hr : Reach cfg prog w0 (start, start + 1) w win g)
    (hs : step cfg prog win.2 g a = some g') (id : Nat) (hid : id < cfg.n) :
    (∀ e ∈ (g.hosts id).queue.events, (g.hosts id).clock ≤ e.time) ∧
    (g.hosts id).clock ≤ (g'.hosts id).clock := by
  obtain ⟨hi, -, -, -⟩ := reach_inv h0 hse hr
  obtain ⟨wins, k, hrun, hst⟩ := hr
  have hrdy : ∀ a b, some (start, start + 1) = some (a, b) → Ready cfg.n a w0 ∧ a < b := by
    intro a b hab
    simp at hab; obtain ⟨rfl, rfl⟩ := hab
    exact ⟨initial_ready h0, by omega⟩
  have hfw := run_fwd hprog hrdy (by
    intro id hid e he; rw [h0.clock id hid]; exact (h0.tasks id hid e he).1) hrun
  have hready := run_ready (by
    intro a b hab
    simp at hab; obtain ⟨rfl, rfl⟩ := hab
    exact ⟨initial_ready h0, by omega, by omega⟩) hrun win.1 win.2 rfl
  have hf := steps_fwd hprog (start_rinv k hready.1 hready.2.1 (sameWorld_refl _ w))
    (start_fwd k hfw.1) hst
  refine ⟨fun e he => (hf id hid).1.1 e (by simp [he]), ?_⟩
  exact (step_fwd hprog hi (fun j hj => (hf j hj).1) hs id hid).2

/-! ## A concrete world, used to show that the hypotheses can be met -/

namespace Ex

/-- Two hosts that play ping-pong: on receiving a packet, advance the clock by one nanosecond and
    reply over a path of latency 5; a local task starts the exchange and schedules another local
    task. -/
def prog : Prog Nat Nat where
  cpuDelay := fun _ st _ => if st = 3 then 1 else 0
  run := fun id st e => match e.data with
    | .local p _ => .schedule (e.time + 3) (p + 1) fun _ =>
        .send (1 - id) p 5 (.done (st + 1))
    | .packet p _ _ => .advance 1 fun _ => .send (1 - id) p 5 (.done (st + 1))

def cfg : Cfg := { n := 2, simEnd := 20, ra := { dynamic := false, minPossible := 5, config := none } }

def host (id : Nat) : Host Nat Nat :=
  { st := 0, queue := ⟨if id = 0 then [⟨0, .local 7 0⟩] else [], 0⟩, nextId := 1, phase := .done,
    ran := [], sent := [], clock := 0 }

def w0 : World Nat Nat := ⟨host, none⟩

/-- A schedule: thread 0 runs host 0 then host 1 to the end. -/
def sched1 : List Act :=
  .claim 0 0 :: (List.replicate 7 (.act 0) ++ (.claim 0 1 :: List.replicate 2 (.act 0)))

/-- Another schedule: two threads, host 1 first, interleaved. -/
def sched2 : List Act :=
  [.claim 1 1, .claim 0 0, .act 0, .act 1, .act 0, .act 0, .act 1, .act 0, .act 0, .act 0, .act 0]

theorem steps_of_exec {H P : Type} [DecidableEq P] {cfg : Cfg} {prog : Prog H P} {re : Nat}
    {as : List Act} {g g' : G H P} (h : exec cfg prog re g as = some g') :
    Steps cfg prog re g g' := by
  have aux : ∀ (as : List Act) (g1 g2 : G H P), Steps cfg prog re g1 g2 →
      ∀ g3, exec cfg prog re g2 as = some g3 → Steps cfg prog re g1 g3 := by
    intro as
    induction as with
    | nil => intro g1 g2 h g3 h3; simp [exec] at h3; subst h3; exact h
    | cons a as ih =>
      intro g1 g2 h g3 h3
      simp only [exec] at h3
      split at h3
      · simp at h3
      · rename_i g' hg'
        exact ih g1 g' (.tail a h hg') g3 h3
  exact aux as g g (.refl g) g' h

example : Initial cfg.n 0 w0 := by
  refine ⟨by simp [w0, host], by simp [w0, host], by simp [w0, host], by simp [w0, host], rfl, ?_, ?_⟩
  · intro id _ e he
    simp only [w0, host] at he
    split at he
    · simp at he; subst he; exact ⟨by simp, 7, 0, rfl, by simp [w0, host]⟩
    · simp at he
  · intro id _
    simp only [w0, host, DistinctIds]
    split <;> simp

structure View where
  st : List Nat
  queued : List (List (Event Nat))
  ran : List (List (Event Nat))
  window : Option (Nat × Nat)
deriving DecidableEq

/-- A view of a state that can be compared. -/
def view (g : G Nat Nat) : View :=
  ⟨[(g.hosts 0).st, (g.hosts 1).st], [(g.hosts 0).queue.events, (g.hosts 1).queue.events],
   [(g.hosts 0).ran, (g.hosts 1).ran], nextWindow cfg g.minUsed (reduceThreads g.threads)⟩

/-- Both schedules complete the round and announce the window that starts with the packet. -/
example : (exec cfg prog 1 (startRound w0 1) sched1).map view =
    some ⟨[1, 0], [[⟨3, .local 8 1⟩], [⟨5, .packet 7 0 2⟩]], [[⟨0, .local 7 0⟩], []],
      some (3, 8)⟩ := by decide +kernel

example : (exec cfg prog 1 (startRound w0 2) sched2).map view =
    (exec cfg prog 1 (startRound w0 1) sched1).map view := by decide +kernel

example : ∃ g, exec cfg prog 1 (startRound w0 2) sched2 = some g ∧
    (g.hosts 0).phase matches .done ∧ (g.hosts 1).phase matches .done ∧
    g.threads.all (fun t => t.cur.isNone) := by
  refine ⟨(exec cfg prog 1 (startRound w0 2) sched2).get (by decide +kernel), ?_⟩
  refine ⟨by simp, ?_⟩
  decide +kernel

/-- The second window is [3, 8): the packet that arrives at 5 is answered in it. -/
def round2 : Option (G Nat Nat) := do
  let g ← exec cfg prog 1 (startRound w0 1) sched1
  exec cfg prog 8 (startRound ⟨g.hosts, g.minUsed⟩ 1)
    (.claim 0 0 :: (List.replicate 12 (.act 0) ++ (.claim 0 1 :: List.replicate 7 (.act 0))))

example : round2.map (fun g => ((g.hosts 1).ran, (g.hosts 1).sent)) =
    some ([⟨5, .packet 7 0 2⟩], [(0, 6, 5, ⟨11, .packet 7 1 1⟩)]) := by decide +kernel

/-- The program satisfies the hypothesis of `C09_clock_monotone`. -/
example : ∀ id st e, Future e.time (prog.run id st e) := by
  intro id st e
  simp only [prog]
  split
  · exact ⟨by omega, fun _ => trivial⟩
  · exact ⟨trivial, trivial⟩

/-! ### Witnesses of what does not hold -/

/-- One host, one event one nanosecond before the stop time, which lets the clock run. -/
def progEnd : Prog Nat Nat where
  cpuDelay := fun _ _ _ => 0
  run := fun _ st _ => .advance 1 fun _ => .done st

def cfgEnd : Cfg := { n := 1, simEnd := 1, ra := { dynamic := false, minPossible := 5, config := none } }

/-- **C06 (finding).** A host's clock can reach the stop time itself: the shim and the system call
    handler allow the clock to be moved up to and including the end of the last window. -/
theorem C06_clock_can_reach_stop :
    ∃ g, Steps cfgEnd progEnd 1 (startRound w0 1) g ∧ (g.hosts 0).clock = cfgEnd.simEnd := by
  refine ⟨(exec cfgEnd progEnd 1 (startRound w0 1) [.claim 0 0, .act 0, .act 0, .act 0]).get
    (by decide +kernel), steps_of_exec (as := [.claim 0 0, .act 0, .act 0, .act 0]) (by simp), ?_⟩
  decide +kernel

/-- One host whose task moves its clock from 0 to 3 and then asks for a task at time 1. -/
def progBack : Prog Nat Nat where
  cpuDelay := fun _ _ _ => 0
  run := fun _ st e => match e.data with
    | .local 7 _ => .advance 3 fun _ => .schedule 1 8 fun _ => .done st
    | _ => .done st

/-- **C09 (finding).** The queue rejects a task earlier than the last popped event, not one earlier
    than the host's clock: a task scheduled in between is accepted and the clock goes back. -/
theorem C09_clock_can_go_back :
    ∃ g g' a, Steps cfg progBack 10 (startRound w0 1) g ∧
      step cfg progBack 10 g a = some g' ∧ (g'.hosts 0).clock < (g.hosts 0).clock := by
  refine ⟨(exec cfg progBack 10 (startRound w0 1) (.claim 0 0 :: List.replicate 6 (.act 0))).get
      (by decide +kernel),
    (exec cfg progBack 10 (startRound w0 1) (.claim 0 0 :: List.replicate 7 (.act 0))).get
      (by decide +kernel), .act 0,
    steps_of_exec (as := .claim 0 0 :: List.replicate 6 (.act 0)) (by simp), ?_, ?_⟩
  · rfl
  · decide +kernel

/-- The CPU model delays an event past the stop time. -/
def progSlow : Prog Nat Nat where
  cpuDelay := fun _ _ _ => 100
  run := fun _ st _ => .done st

/-- **C09 (finding).** An event that the CPU model delays to or past the stop time is silently
    discarded: it is neither executed nor kept in the queue. -/
theorem C09_event_dropped_at_stop :
    ∃ g, Steps cfg progSlow 1 (startRound w0 1) g ∧ (g.hosts 0).ran = [] ∧
      (g.hosts 0).queue.events = [] ∧ ((startRound w0 1).hosts 0).queue.events ≠ [] := by
  refine ⟨(exec cfg progSlow 1 (startRound w0 1) [.claim 0 0, .act 0, .act 0]).get
    (by decide +kernel), steps_of_exec (as := [.claim 0 0, .act 0, .act 0]) (by simp), ?_⟩
  decide +kernel

end Ex
end Shadow.Sim
