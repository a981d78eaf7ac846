import Verif.Sim.Model
import Verif.Event.Props

/-!
# One host on its own

The steps of a host are not influenced by events at or after the end of the round
(`lstep_rel`), and every step of a host is one of the cases of `LCase`.
-/
namespace Shadow.Sim
open Shadow.Ev

set_option linter.unusedSectionVars false
set_option linter.unusedSimpArgs false

variable {H P : Type} [DecidableEq P]

/-- The event popped but not yet executed. -/
def held : Phase H P → List (Event P)
  | .hold e => [e]
  | _ => []

@[simp] theorem held_hold (e : Event P) : held (.hold e : Phase H P) = [e] := rfl
@[simp] theorem held_loop : held (.loop : Phase H P) = [] := rfl
@[simp] theorem held_waiting : held (.waiting : Phase H P) = [] := rfl
@[simp] theorem held_broke : held (.broke : Phase H P) = [] := rfl
@[simp] theorem held_done : held (.done : Phase H P) = [] := rfl
@[simp] theorem held_exec (n : Nat) (c : Code H P) : held (.exec n c : Phase H P) = [] := rfl

/-- Host `h` looks like host `s` except for additional queued events `inc`, all at or after the
    end of the round. -/
structure Rel (re : Nat) (h s : Host H P) (inc : List (Event P)) : Prop where
  st : h.st = s.st
  nextId : h.nextId = s.nextId
  phase : h.phase = s.phase
  ran : h.ran = s.ran
  sent : h.sent = s.sent
  clock : h.clock = s.clock
  last : h.queue.lastPopped = s.queue.lastPopped
  perm : h.queue.events.Perm (s.queue.events ++ inc)
  late : ∀ e ∈ inc, re ≤ e.time

theorem next_down {re : Nat} {q1 q2 : Queue P} {inc : List (Event P)}
    (hp : q1.events.Perm (q2.events ++ inc)) (hl : ∀ e ∈ inc, re ≤ e.time) {t : Nat}
    (ht : t < re) (h : q1.nextEventTime = some t) : q2.nextEventTime = some t := by
  rw [(nextEventTime_spec q1).2] at h
  rw [(nextEventTime_spec q2).2]
  obtain ⟨⟨e, he, het⟩, hmin⟩ := h
  refine ⟨?_, fun x hx => hmin x (hp.mem_iff.mpr (by simp [hx]))⟩
  have := hp.mem_iff.mp he
  simp at this
  rcases this with h1 | h1
  · exact ⟨e, h1, het⟩
  · have := hl e h1; omega

theorem next_up {re : Nat} {q1 q2 : Queue P} {inc : List (Event P)}
    (hp : q1.events.Perm (q2.events ++ inc)) (hl : ∀ e ∈ inc, re ≤ e.time) {t : Nat}
    (ht : t < re) (h : q2.nextEventTime = some t) : q1.nextEventTime = some t := by
  rw [(nextEventTime_spec q2).2] at h
  rw [(nextEventTime_spec q1).2]
  obtain ⟨⟨e, he, het⟩, hmin⟩ := h
  refine ⟨⟨e, hp.mem_iff.mpr (by simp [he]), het⟩, fun x hx => ?_⟩
  have := hp.mem_iff.mp hx
  simp at this
  rcases this with h1 | h1
  · exact hmin x h1
  · have := hl x h1; omega

theorem maxRunahead_eq {re : Nat} {q1 q2 : Queue P} {inc : List (Event P)}
    (hp : q1.events.Perm (q2.events ++ inc)) (hl : ∀ e ∈ inc, re ≤ e.time) :
    maxRunahead re q1 = maxRunahead re q2 := by
  unfold maxRunahead
  cases h1 : q1.nextEventTime with
  | some t =>
    by_cases ht : t < re
    · rw [next_down hp hl ht h1]
    · cases h2 : q2.nextEventTime with
      | some t' =>
        by_cases ht' : t' < re
        · rw [next_up hp hl ht' h2] at h1; simp at h1; omega
        · simp only; omega
      | none => simp only; omega
  | none =>
    cases h2 : q2.nextEventTime with
    | some t' =>
      by_cases ht' : t' < re
      · rw [next_up hp hl ht' h2] at h1; simp at h1
      · simp only; omega
    | none => rfl

theorem distinctIds_left {a b : List (Event P)} (h : DistinctIds (a ++ b)) : DistinctIds a :=
  (List.pairwise_append.mp h).1

theorem distinctIds_right {a b : List (Event P)} (h : DistinctIds (a ++ b)) : DistinctIds b :=
  (List.pairwise_append.mp h).2.1

theorem pop_rel {re : Nat} {q1 q2 q1' : Queue P} {inc : List (Event P)} {e : Event P}
    (hp : q1.events.Perm (q2.events ++ inc)) (hl : ∀ x ∈ inc, re ≤ x.time)
    (hlast : q1.lastPopped = q2.lastPopped) (hd : DistinctIds q1.events)
    (he : e.time < re) (h : q1.pop = .ok (some e, q1')) :
    ∃ q2', q2.pop = .ok (some e, q2') ∧ q1'.events.Perm (q2'.events ++ inc) ∧
      q1'.lastPopped = q2'.lastPopped := by
  rcases pop_spec q1 q1' _ h with ⟨h1, -⟩ | ⟨m, h1, hpm, hmin, hle, hlp⟩
  · simp at h1
  simp at h1; subst h1
  have hd' := distinctIds_perm hp hd
  have hd2 : DistinctIds q2.events := distinctIds_left hd'
  have hi2 : QInv q2 := by
    intro x hx
    have := not_before_time (hmin x (hp.mem_iff.mpr (by simp [hx])))
    omega
  obtain ⟨out, q2', h2⟩ := pop_ok q2 hi2 hd2
  have hemem : e ∈ q1.events := hpm.subset (by simp)
  have he2 : e ∈ q2.events := by
    have := hp.mem_iff.mp hemem
    simp at this
    rcases this with h3 | h3
    · exact h3
    · have := hl e h3; omega
  rcases pop_spec q2 q2' _ h2 with ⟨-, h3, -⟩ | ⟨m, rfl, hpm2, hmin2, hle2, hlp2⟩
  · rw [h3] at he2; simp at he2
  have hm2 : m ∈ q2.events := hpm2.subset (by simp)
  have hme : m = e := by
    apply Classical.byContradiction
    intro hne
    have := distinctIds_mem hd2 hm2 he2 hne
    rcases before_total m e this with hb | hb
    · exact hmin m (hp.mem_iff.mpr (by simp [hm2])) hb
    · exact hmin2 e he2 hb
  subst hme
  refine ⟨q2', h2, ?_, by omega⟩
  have h5 : (m :: q1'.events).Perm (m :: (q2'.events ++ inc)) :=
    hpm.trans (hp.trans (hpm2.symm.append_right inc))
  exact List.Perm.cons_inv h5

theorem pushLocal_spec {se : Nat} {q q' : Queue P} {e : Event P} {b : Bool}
    (h : pushLocal se q e = some (b, q')) :
    (b = false ∧ q' = q ∧ se ≤ e.time) ∨
    (b = true ∧ q'.events = e :: q.events ∧ q'.lastPopped = q.lastPopped ∧
      e.time < se ∧ q.lastPopped ≤ e.time) := by
  unfold pushLocal Queue.push at h
  split at h
  · simp at h; exact .inl ⟨h.1, h.2.symm, by assumption⟩
  · by_cases hc : e.time ≥ q.lastPopped
    · simp [hc] at h; obtain ⟨rfl, rfl⟩ := h
      exact .inr ⟨rfl, rfl, rfl, by omega, hc⟩
    · simp [hc] at h

theorem pushLocal_rel {se : Nat} {q1 q2 q1' : Queue P} {e : Event P} {b : Bool}
    {inc : List (Event P)} (hp : q1.events.Perm (q2.events ++ inc))
    (hlast : q1.lastPopped = q2.lastPopped) (h : pushLocal se q1 e = some (b, q1')) :
    ∃ q2', pushLocal se q2 e = some (b, q2') ∧ q1'.events.Perm (q2'.events ++ inc) ∧
      q1'.lastPopped = q2'.lastPopped := by
  rcases pushLocal_spec h with ⟨rfl, rfl, h1⟩ | ⟨rfl, h1, h2, h3, h4⟩
  · exact ⟨q2, by simp [pushLocal, h1], hp, hlast⟩
  · refine ⟨⟨e :: q2.events, q2.lastPopped⟩, ?_, ?_, ?_⟩
    · unfold pushLocal Queue.push
      rw [if_neg (by omega)]
      rw [if_pos (by omega)]
    · rw [h1]; exact hp.cons e
    · rw [h2]; exact hlast

theorem codeStep_rel {cfg : Cfg} {re id : Nat} {h s h' : Host H P}
    {inc : List (Event P)} {out : Out P} {now : Nat} {c : Code H P} (hr : Rel re h s inc)
    (hs : codeStep cfg re id h now c = some (h', out)) :
    ∃ s', codeStep cfg re id s now c = some (s', out) ∧ Rel re h' s' inc := by
  have hmr := maxRunahead_eq hr.perm hr.late
  cases c with
  | done st =>
    simp only [codeStep, Option.some.injEq, Prod.mk.injEq] at *
    obtain ⟨rfl, rfl⟩ := hs
    exact ⟨_, ⟨rfl, rfl⟩, rfl, hr.nextId, rfl, hr.ran, hr.sent, hr.clock, hr.last, hr.perm, hr.late⟩
  | schedule t p k =>
    simp only [codeStep] at *
    split at hs
    · rename_i b q hpl
      simp only [Option.some.injEq, Prod.mk.injEq] at hs
      obtain ⟨rfl, rfl⟩ := hs
      obtain ⟨q2, h1, h2, h3⟩ := pushLocal_rel hr.perm hr.last hpl
      rw [hr.nextId] at h1
      rw [h1]
      refine ⟨_, rfl, hr.st, ?_, rfl, hr.ran, hr.sent, hr.clock, h3, h2, hr.late⟩
      simp [hr.nextId]
    · simp at hs
  | send dst p lat k =>
    simp only [codeStep] at *
    split at hs
    · rename_i hc
      simp only [Option.some.injEq, Prod.mk.injEq] at hs
      obtain ⟨rfl, rfl⟩ := hs
      rw [if_pos hc]
      exact ⟨_, rfl, hr.st, hr.nextId, rfl, hr.ran, hr.sent, hr.clock, hr.last,
        hr.perm, hr.late⟩
    · rename_i hc
      split at hs
      · simp at hs
      · rename_i hc2
        simp only [Option.some.injEq, Prod.mk.injEq] at hs
        obtain ⟨rfl, rfl⟩ := hs
        rw [if_neg hc, if_neg hc2, ← hr.nextId]
        refine ⟨_, rfl, hr.st, ?_, rfl, hr.ran, ?_,
          hr.clock, hr.last, hr.perm, hr.late⟩
        · simp [hr.nextId]
        · simp [hr.sent, hr.nextId]
  | advance d k =>
    simp only [codeStep] at *
    rw [hmr] at hs
    split at hs
    · rename_i hc
      simp only [Option.some.injEq, Prod.mk.injEq] at hs
      obtain ⟨rfl, rfl⟩ := hs
      rw [if_pos hc]
      exact ⟨_, rfl, hr.st, hr.nextId, rfl, hr.ran, hr.sent, rfl, hr.last,
        hr.perm, hr.late⟩
    · rename_i hc
      simp only [Option.some.injEq, Prod.mk.injEq] at hs
      obtain ⟨rfl, rfl⟩ := hs
      rw [if_neg hc]
      exact ⟨_, rfl, hr.st, hr.nextId, rfl, hr.ran, hr.sent, hr.clock, hr.last,
        hr.perm, hr.late⟩
  | runahead k =>
    simp only [codeStep, Option.some.injEq, Prod.mk.injEq] at *
    obtain ⟨rfl, rfl⟩ := hs
    rw [hmr]
    exact ⟨_, ⟨rfl, rfl⟩, hr.st, hr.nextId, rfl, hr.ran, hr.sent, hr.clock, hr.last, hr.perm,
      hr.late⟩

/-- The heart of schedule independence: what a host does next is not influenced by the extra
    events that other hosts have pushed to it for later rounds. -/
theorem lstep_rel {cfg : Cfg} {prog : Prog H P} {re id : Nat} {h s h' : Host H P}
    {inc : List (Event P)} {out : Out P} (hr : Rel re h s inc)
    (hd : DistinctIds h.queue.events)
    (hs : lstep cfg prog re id h = some (h', out)) :
    ∃ s', lstep cfg prog re id s = some (s', out) ∧ Rel re h' s' inc := by
  unfold lstep at hs
  cases hph : h.phase with
  | waiting =>
    have hph' := hr.phase.symm.trans hph
    simp only [hph, Option.some.injEq, Prod.mk.injEq] at hs
    obtain ⟨rfl, rfl⟩ := hs
    refine ⟨{ s with phase := .loop }, by unfold lstep; simp only [hph'], hr.st, hr.nextId, rfl, hr.ran, hr.sent,
      hr.clock, hr.last, hr.perm, hr.late⟩
  | loop =>
    have hph' := hr.phase.symm.trans hph
    simp only [hph] at hs
    unfold lstep; simp only [hph']
    cases hn : h.queue.nextEventTime with
    | none =>
      simp only [hn, Option.some.injEq, Prod.mk.injEq] at hs
      obtain ⟨rfl, rfl⟩ := hs
      have he : h.queue.events = [] := (nextEventTime_spec _).1.mp hn
      have : s.queue.nextEventTime = none := by
        rw [(nextEventTime_spec _).1]
        have := hr.perm; rw [he] at this
        have := this.symm.eq_nil; simp at this; exact this.1
      simp only [this]
      exact ⟨_, rfl, hr.st, hr.nextId, rfl, hr.ran, hr.sent, hr.clock, hr.last, hr.perm, hr.late⟩
    | some t =>
      simp only [hn] at hs
      split at hs
      · rename_i ht
        rw [next_down hr.perm hr.late ht hn]
        simp only [if_pos ht]
        split at hs
        · rename_i e q hpop
          simp only [Option.some.injEq, Prod.mk.injEq] at hs
          obtain ⟨rfl, rfl⟩ := hs
          have het : e.time < re := by
            have := C02_next_is_pop _ _ _ hpop
            rw [hn] at this; simp at this; omega
          obtain ⟨q2, h1, h2, h3⟩ := pop_rel hr.perm hr.late hr.last hd het hpop
          rw [h1]
          exact ⟨_, rfl, hr.st, hr.nextId, rfl, hr.ran, hr.sent, hr.clock, h3, h2, hr.late⟩
        · simp at hs
      · rename_i ht
        simp only [Option.some.injEq, Prod.mk.injEq] at hs
        obtain ⟨rfl, rfl⟩ := hs
        cases hn2 : s.queue.nextEventTime with
        | none =>
          exact ⟨_, rfl, hr.st, hr.nextId, rfl, hr.ran, hr.sent, hr.clock, hr.last, hr.perm,
            hr.late⟩
        | some t2 =>
          have : ¬ t2 < re := by
            intro h2
            have := next_up hr.perm hr.late h2 hn2
            rw [hn] at this; simp at this; omega
          simp only [if_neg this]
          exact ⟨_, rfl, hr.st, hr.nextId, rfl, hr.ran, hr.sent, hr.clock, hr.last, hr.perm,
            hr.late⟩
  | hold e =>
    have hph' := hr.phase.symm.trans hph
    simp only [hph] at hs
    unfold lstep; simp only [hph']
    rw [hr.st] at hs
    split at hs
    · rename_i hd
      rw [if_pos hd]
      split at hs
      · rename_i b q hpl
        simp only [Option.some.injEq, Prod.mk.injEq] at hs
        obtain ⟨rfl, rfl⟩ := hs
        obtain ⟨q2, h1, h2, h3⟩ := pushLocal_rel hr.perm hr.last hpl
        rw [h1]
        exact ⟨_, rfl, rfl, hr.nextId, rfl, hr.ran, hr.sent, hr.clock, h3, h2, hr.late⟩
      · simp at hs
    · rename_i hd
      rw [if_neg hd]
      simp only [Option.some.injEq, Prod.mk.injEq] at hs
      obtain ⟨rfl, rfl⟩ := hs
      exact ⟨_, rfl, rfl, hr.nextId, rfl, by simp [hr.ran], hr.sent, rfl, hr.last, hr.perm,
        hr.late⟩
  | exec now c =>
    have hph' := hr.phase.symm.trans hph
    simp only [hph] at hs
    unfold lstep; simp only [hph']
    exact codeStep_rel hr hs
  | broke =>
    have hph' := hr.phase.symm.trans hph
    simp only [hph, Option.some.injEq, Prod.mk.injEq] at hs
    obtain ⟨rfl, rfl⟩ := hs
    refine ⟨{ s with phase := .done }, by unfold lstep; simp only [hph'], hr.st, hr.nextId, rfl, hr.ran, hr.sent,
      hr.clock, hr.last, hr.perm, hr.late⟩
  | done => simp [hph] at hs

/-- A case description of the steps of a host, used for all invariants. -/
inductive LCase (cfg : Cfg) (prog : Prog H P) (re id : Nat) (h h' : Host H P) (out : Out P) :
    Prop where
  /-- only the phase changes, nothing is held before or after -/
  | move (p : Phase H P) (hp : held h.phase = []) (hp' : held p = [])
      (heq : h' = { h with phase := p }) (ho : out = none)
      (hx : ∀ now c, p = .exec now c → ∃ c0, h.phase = .exec now c0 ∧
        ((∃ d k, c0 = .advance d k ∧ c = k false) ∨
         (∃ k, c0 = .runahead k ∧ c = k (maxRunahead re h.queue)) ∨
         (∃ dst p lat, c0 = .send dst p lat c)))
      (hb : ((p = .broke) ∨ (p = .done)) →
        (∀ e ∈ h.queue.events, re ≤ e.time) ∨ (h.phase = .broke))
      (hw : ¬ (p = .waiting))
      (hl : (p = .loop) → ¬ (h.phase = .done))
  | finish (now : Nat) (st : H) (hp : h.phase = .exec now (.done st))
      (heq : h' = { h with st := st, phase := .loop }) (ho : out = none)
  | pop (e : Event P) (q : Queue P) (hp : h.phase = .loop) (ht : e.time < re)
      (hpop : h.queue.pop = .ok (some e, q))
      (heq : h' = { h with queue := q, phase := .hold e }) (ho : out = none)
  | drop (e : Event P) (hp : h.phase = .hold e)
      (hlate : cfg.simEnd ≤ e.time + prog.cpuDelay id h.st e.time)
      (heq : h' = { h with phase := .loop }) (ho : out = none)
  | repush (e : Event P) (q : Queue P) (d : Nat) (hd : 0 < d) (hp : h.phase = .hold e)
      (hq : q.events = { e with time := e.time + d } :: h.queue.events)
      (hl : q.lastPopped = h.queue.lastPopped) (ht : e.time + d < cfg.simEnd)
      (heq : h' = { h with queue := q, phase := .loop }) (ho : out = none)
  | start (e : Event P) (hp : h.phase = .hold e) (hd : prog.cpuDelay id h.st e.time = 0)
      (heq : h' = { h with phase := .exec e.time (prog.run id h.st e), ran := h.ran ++ [e],
                           clock := e.time }) (ho : out = none)
  | refused (now t : Nat) (p : P) (k : Bool → Code H P) (hp : h.phase = .exec now (.schedule t p k))
      (ht : cfg.simEnd ≤ t)
      (heq : h' = { h with nextId := h.nextId + 1, phase := .exec now (k false) }) (ho : out = none)
  | push (now t : Nat) (p : P) (k : Bool → Code H P) (q : Queue P)
      (hp : h.phase = .exec now (.schedule t p k)) (ht : t < cfg.simEnd)
      (hle : h.queue.lastPopped ≤ t)
      (hq : q.events = ⟨t, .local p h.nextId⟩ :: h.queue.events)
      (hl : q.lastPopped = h.queue.lastPopped)
      (heq : h' = { h with queue := q, nextId := h.nextId + 1, phase := .exec now (k true) })
      (ho : out = none)
  | send (now dst lat : Nat) (p : P) (k : Code H P) (hp : h.phase = .exec now (.send dst p lat k))
      (hn : now < cfg.simEnd) (hdst : dst < cfg.n) (hlat : 0 < lat) (e : Event P)
      (he : e = ⟨max (now + lat) re, .packet p id h.nextId⟩)
      (heq : h' = { h with nextId := h.nextId + 1, phase := .exec now k,
                           sent := h.sent ++ [(dst, now, lat, e)] })
      (ho : out = some (dst, lat, e))
  | advance (now d : Nat) (k : Bool → Code H P) (hp : h.phase = .exec now (.advance d k))
      (hle : now + d ≤ maxRunahead re h.queue)
      (heq : h' = { h with phase := .exec (now + d) (k true), clock := now + d }) (ho : out = none)

theorem lstep_cases {cfg : Cfg} {prog : Prog H P} {re id : Nat} {h h' : Host H P} {out : Out P}
    (hs : lstep cfg prog re id h = some (h', out)) : LCase cfg prog re id h h' out := by
  unfold lstep at hs
  cases hph : h.phase with
  | waiting =>
    simp only [hph, Option.some.injEq, Prod.mk.injEq] at hs
    obtain ⟨rfl, rfl⟩ := hs
    exact .move .loop (by simp [hph, held]) rfl rfl rfl (by simp) (by simp) (by simp) (by simp [hph])
  | loop =>
    simp only [hph] at hs
    split at hs
    · rename_i t hn
      split at hs
      · rename_i ht
        split at hs
        · rename_i e q hpop
          simp only [Option.some.injEq, Prod.mk.injEq] at hs
          obtain ⟨rfl, rfl⟩ := hs
          have := C02_next_is_pop _ _ _ hpop
          rw [hn] at this; simp at this
          exact .pop e q (by simp [hph]) (by omega) hpop rfl rfl
        · simp at hs
      · rename_i ht
        simp only [Option.some.injEq, Prod.mk.injEq] at hs
        obtain ⟨rfl, rfl⟩ := hs
        refine .move .broke (by simp [hph, held]) rfl rfl rfl (by simp) ?_ (by simp) (by simp)
        intro _
        left
        intro e he
        have := ((nextEventTime_spec _).2 t |>.mp hn).2 e he
        omega
    · rename_i hn
      simp only [Option.some.injEq, Prod.mk.injEq] at hs
      obtain ⟨rfl, rfl⟩ := hs
      refine .move .broke (by simp [hph, held]) rfl rfl rfl (by simp) ?_ (by simp) (by simp)
      intro _
      left
      have := (nextEventTime_spec _).1.mp hn
      simp [this]
  | hold e =>
    simp only [hph] at hs
    split at hs
    · rename_i hd
      split at hs
      · rename_i b q hpl
        simp only [Option.some.injEq, Prod.mk.injEq] at hs
        obtain ⟨rfl, rfl⟩ := hs
        rcases pushLocal_spec hpl with ⟨rfl, rfl, h1⟩ | ⟨rfl, h1, h2, h3, h4⟩
        · exact .drop e hph h1 rfl rfl
        · exact .repush e q _ hd hph h1 h2 h3 rfl rfl
      · simp at hs
    · rename_i hd
      simp only [Option.some.injEq, Prod.mk.injEq] at hs
      obtain ⟨rfl, rfl⟩ := hs
      exact .start e hph (by omega) rfl rfl
  | exec now c =>
    simp only [hph] at hs
    cases c with
    | done st =>
      simp only [codeStep, Option.some.injEq, Prod.mk.injEq] at hs
      obtain ⟨rfl, rfl⟩ := hs
      exact .finish now st hph rfl rfl
    | schedule t p k =>
      simp only [codeStep] at hs
      split at hs
      · rename_i b q hpl
        simp only [Option.some.injEq, Prod.mk.injEq] at hs
        obtain ⟨rfl, rfl⟩ := hs
        rcases pushLocal_spec hpl with ⟨rfl, rfl, h1⟩ | ⟨rfl, h1, h2, h3, h4⟩
        · exact .refused now t p k hph h1 rfl rfl
        · exact .push now t p k q hph h3 h4 h1 h2 rfl rfl
      · simp at hs
    | send dst p lat k =>
      simp only [codeStep] at hs
      split at hs
      · simp only [Option.some.injEq, Prod.mk.injEq] at hs
        obtain ⟨rfl, rfl⟩ := hs
        refine .move _ (by simp [hph, held]) rfl rfl rfl ?_ (by simp) (by simp) (by simp)
        intro n c heq
        injection heq with h1 h2; subst h1; subst h2
        exact ⟨_, hph, .inr (.inr ⟨dst, p, lat, rfl⟩)⟩
      · split at hs
        · simp at hs
        · rename_i h1 h2
          simp only [Option.some.injEq, Prod.mk.injEq] at hs
          obtain ⟨rfl, rfl⟩ := hs
          refine .send now dst lat p k hph (by omega) (by omega) (by omega) _ ?_ rfl rfl
          congr 1
          split <;> omega
    | advance d k =>
      simp only [codeStep] at hs
      split at hs
      · rename_i hle
        simp only [Option.some.injEq, Prod.mk.injEq] at hs
        obtain ⟨rfl, rfl⟩ := hs
        exact .advance now d k hph hle rfl rfl
      · simp only [Option.some.injEq, Prod.mk.injEq] at hs
        obtain ⟨rfl, rfl⟩ := hs
        refine .move _ (by simp [hph, held]) rfl rfl rfl ?_ (by simp) (by simp) (by simp)
        intro n c heq
        injection heq with h1 h2; subst h1; subst h2
        exact ⟨_, hph, .inl ⟨d, k, rfl, rfl⟩⟩
    | runahead k =>
      simp only [codeStep, Option.some.injEq, Prod.mk.injEq] at hs
      obtain ⟨rfl, rfl⟩ := hs
      refine .move _ (by simp [hph, held]) rfl rfl rfl ?_ (by simp) (by simp) (by simp)
      intro n c heq
      injection heq with h1 h2; subst h1; subst h2
      exact ⟨_, hph, .inr (.inl ⟨k, rfl, rfl⟩)⟩
  | broke =>
    simp only [hph, Option.some.injEq, Prod.mk.injEq] at hs
    obtain ⟨rfl, rfl⟩ := hs
    exact .move .done (by simp [hph, held]) rfl rfl rfl (by simp) (by simp [hph]) (by simp) (by simp)
  | done => simp [hph] at hs

end Shadow.Sim
