import Verif.Sim.Local

/-!
# Invariants of one host during a round

`HInv` collects: identities are distinct, events are executed in the deterministic order, nothing
earlier than what has been executed is left in the queue, times stay inside the window.
-/
namespace Shadow.Sim
open Shadow.Ev

set_option linter.unusedSectionVars false
set_option linter.unusedSimpArgs false

variable {H P : Type} [DecidableEq P]

/-- Everything a host has executed, holds or has queued. -/
def all (h : Host H P) : List (Event P) := h.ran ++ (held h.phase ++ h.queue.events)

/-- Invariant of host `id` in the round with window `[lo, re)`. -/
structure HInv (cfg : Cfg) (lo re id : Nat) (h : Host H P) : Prop where
  distinct : DistinctIds (all h)
  localId : ∀ e ∈ all h, ∀ p i, e.data = .local p i → i < h.nextId
  sorted : h.ran.Pairwise Before
  ranBefore : ∀ r ∈ h.ran, ∀ e ∈ held h.phase ++ h.queue.events, Before r e
  ranTime : ∀ r ∈ h.ran, r.time ≤ h.queue.lastPopped
  qinv : QInv h.queue
  lower : ∀ e ∈ held h.phase ++ h.queue.events, lo ≤ e.time
  heldTime : ∀ e ∈ held h.phase, e.time = h.queue.lastPopped
  heldMin : ∀ e ∈ held h.phase, ∀ x ∈ h.queue.events, Before e x
  last : h.queue.lastPopped < re
  window : lo < re
  over : ((h.phase = .broke) ∨ (h.phase = .done)) → ∀ e ∈ h.queue.events, re ≤ e.time
  execNow : ∀ now c, h.phase = .exec now c →
    h.clock = now ∧ lo ≤ h.queue.lastPopped ∧ h.queue.lastPopped ≤ now
  clk : h.clock ≤ re
  sentOk : ∀ x ∈ h.sent, x.2.2.2.time = max (x.2.1 + x.2.2.1) re ∧ x.1 < cfg.n ∧ 0 < x.2.2.1 ∧
    lo ≤ x.2.1 ∧ x.2.1 ≤ re ∧ x.2.1 < cfg.simEnd ∧
    ∃ p i, x.2.2.2.data = .packet p id i ∧ i < h.nextId

theorem sameId_time {a b : Event P} (t : Nat) :
    SameId { a with time := t } b ↔ SameId a b := by
  unfold SameId; rfl

theorem before_of_time {a b : Event P} (h : a.time < b.time) : Before a b := .inl h

theorem before_time {a b : Event P} (h : Before a b) : a.time ≤ b.time := by
  rcases h with h | h
  · omega
  · omega

theorem maxRunahead_le (re : Nat) (q : Queue P) : maxRunahead re q ≤ re := by
  unfold maxRunahead; split <;> omega

theorem maxRunahead_le_event (re : Nat) (q : Queue P) (e : Event P) (he : e ∈ q.events) :
    maxRunahead re q ≤ e.time := by
  unfold maxRunahead
  cases h : q.nextEventTime with
  | none => have := (nextEventTime_spec q).1.mp h; simp [this] at he
  | some t =>
    have := ((nextEventTime_spec q).2 t |>.mp h).2 e he
    simp only; omega

/-- The least element of a queue with distinct identities precedes all others. -/
theorem pop_before {q q' : Queue P} {e : Event P} (hd : DistinctIds q.events)
    (h : q.pop = .ok (some e, q')) :
    (e :: q'.events).Perm q.events ∧ (∀ x ∈ q'.events, Before e x) ∧
      q.lastPopped ≤ e.time ∧ q'.lastPopped = e.time := by
  rcases pop_spec q q' _ h with ⟨h1, -⟩ | ⟨m, h1, hpm, hmin, hle, hlp⟩
  · simp at h1
  simp at h1; subst h1
  refine ⟨hpm, fun x hx => ?_, hle, hlp⟩
  have hd' := distinctIds_perm hpm.symm hd
  have hns := (List.pairwise_cons.mp hd').1 x hx
  rcases before_total e x hns with hb | hb
  · exact hb
  · exact absurd hb (hmin x (hpm.subset (by simp [hx])))

theorem lstep_inv {cfg : Cfg} {prog : Prog H P} {lo re id : Nat} {h h' : Host H P} {out : Out P}
    (hi : HInv cfg lo re id h) (hs : lstep cfg prog re id h = some (h', out)) :
    HInv cfg lo re id h' := by
  cases lstep_cases hs with
  | move p hp hp' heq ho hx hb hw hl =>
    subst heq
    have hall : all { h with phase := p } = all h := by simp [all, hp, hp']
    refine ⟨by rw [hall]; exact hi.distinct, by rw [hall]; exact hi.localId, hi.sorted,
      by simpa [hp, hp'] using hi.ranBefore, hi.ranTime, hi.qinv,
      by simpa [hp, hp'] using hi.lower, by simp [hp'], by simp [hp'], hi.last, hi.window, ?_, ?_,
      hi.clk, hi.sentOk⟩
    · intro hph
      rcases hb hph with h1 | h1
      · exact h1
      · exact hi.over (.inl h1)
    · intro now c hpe
      obtain ⟨c0, h1, -⟩ := hx now c hpe
      exact hi.execNow now c0 h1
  | finish now st hp heq ho =>
    subst heq
    have hh : held h.phase = [] := by simp [hp]
    have hall : all { h with st := st, phase := .loop } = all h := by simp [all, hh]
    refine ⟨by rw [hall]; exact hi.distinct, by rw [hall]; exact hi.localId, hi.sorted,
      by simpa [hh] using hi.ranBefore, hi.ranTime, hi.qinv,
      by simpa [hh] using hi.lower, by simp, by simp, hi.last, hi.window,
      by simp, by simp, hi.clk, hi.sentOk⟩
  | pop e q hp ht hpop heq ho =>
    subst heq
    have hh : held h.phase = [] := by
      cases hq : h.phase <;> simp_all
    have hdq : DistinctIds h.queue.events := by
      have := distinctIds_right hi.distinct
      simpa [hh] using this
    obtain ⟨hperm, hbef, hle, hlp⟩ := pop_before hdq hpop
    have hpall : (all { h with queue := q, phase := .hold e }).Perm (all h) := by
      simp only [all, hh, held_hold, List.nil_append]
      exact List.Perm.append_left _ hperm
    have hmem : ∀ x, x ∈ held (Phase.hold e : Phase H P) ++ q.events →
        x ∈ held h.phase ++ h.queue.events := by
      intro x hx
      simp only [hh, List.nil_append]
      exact hperm.subset (by simpa [held] using hx)
    refine ⟨distinctIds_perm hpall.symm hi.distinct,
      fun x hx => hi.localId x (hpall.mem_iff.mp hx), hi.sorted,
      fun r hr x hx => hi.ranBefore r hr x (hmem x hx), ?_, ?_, fun x hx => hi.lower x (hmem x hx),
      ?_, ?_, ?_, hi.window, by simp, by simp, hi.clk, hi.sentOk⟩
    · intro r hr
      have := before_time (hi.ranBefore r hr e (hmem e (by simp)))
      simp only [hlp]; omega
    · intro x hx
      have := before_time (hbef x hx)
      simp only [hlp]; omega
    · intro x hx; simp at hx; subst hx; exact hlp.symm
    · intro x hx y hy; simp at hx; subst hx; exact hbef y hy
    · simp only [hlp]; omega
  | drop e hp hlate heq ho =>
    subst heq
    have hh : held h.phase = [e] := by simp [hp]
    have hsub : List.Sublist (all { h with phase := .loop }) (all h) := by
      simp only [all, hh, held_loop]
      exact List.Sublist.append_left (List.sublist_append_right _ _) _
    refine ⟨List.Pairwise.sublist hsub hi.distinct, fun x hx => hi.localId x (hsub.subset hx),
      hi.sorted, fun r hr x hx => hi.ranBefore r hr x (by simp at hx; simp [hx]), hi.ranTime,
      hi.qinv, fun x hx => hi.lower x (by simp at hx; simp [hx]), by simp,
      by simp, hi.last, hi.window, by simp, by simp, hi.clk, hi.sentOk⟩
  | repush e q d hd hp hq hl ht heq ho =>
    subst heq
    have hh : held h.phase = [e] := by simp [hp]
    have het := hi.heldTime e (by simp [hh])
    have hdis := hi.distinct
    simp only [all, hh] at hdis
    have hmemq : ∀ x, x ∈ q.events → x = { e with time := e.time + d } ∨ x ∈ h.queue.events := by
      intro x hx; rw [hq] at hx; simpa using hx
    refine ⟨?_, ?_, hi.sorted, ?_, ?_, ?_, ?_, by simp, by simp, by simpa [hl] using hi.last,
      hi.window, by simp, by simp, hi.clk, hi.sentOk⟩
    · simp only [all, held_loop, held_exec, List.nil_append, hq]
      unfold DistinctIds at *
      rw [List.pairwise_append] at *
      obtain ⟨h1, h2, h3⟩ := hdis
      simp only [List.cons_append, List.nil_append, List.pairwise_cons] at h2 ⊢
      refine ⟨h1, ⟨fun x hx => ?_, h2.2⟩, ?_⟩
      · exact fun hc => h2.1 x hx ((sameId_time _).mp hc)
      · intro a ha b hb
        rcases List.mem_cons.mp hb with rfl | hb
        · intro hc
          exact h3 a ha e (by simp) (sameId_symm ((sameId_time _).mp (sameId_symm hc)))
        · exact h3 a ha b (by simp [hb])
    · intro x hx p i hxd
      simp only [all, held_loop, held_exec, List.nil_append, List.mem_append] at hx
      rcases hx with hx | hx
      · exact hi.localId x (by simp [all, hx]) p i hxd
      · rcases hmemq x hx with rfl | hx
        · exact hi.localId e (by simp [all, hh]) p i hxd
        · exact hi.localId x (by simp [all, hx]) p i hxd
    · intro r hr x hx
      simp only [held_loop, held_exec, List.nil_append] at hx
      rcases hmemq x hx with rfl | hx
      · apply before_of_time
        have := hi.ranTime r hr
        simp only; omega
      · exact hi.ranBefore r hr x (by simp [hx])
    · intro r hr; simpa [hl] using hi.ranTime r hr
    · intro x hx
      simp only [hl]
      rcases hmemq x hx with rfl | hx
      · simp only; omega
      · exact hi.qinv x hx
    · intro x hx
      simp only [held_loop, held_exec, List.nil_append] at hx
      rcases hmemq x hx with rfl | hx
      · have := hi.lower e (by simp [hh]); simp only; omega
      · exact hi.lower x (by simp [hx])
  | start e hp hd heq ho =>
    subst heq
    have hh : held h.phase = [e] := by simp [hp]
    have het := hi.heldTime e (by simp [hh])
    have hlo := hi.lower e (by simp [hh])
    have hall : all { h with phase := .exec e.time (prog.run id h.st e), ran := h.ran ++ [e], clock := e.time }
        = all h := by simp [all, hh]
    refine ⟨by rw [hall]; exact hi.distinct, by rw [hall]; exact hi.localId, ?_, ?_, ?_, hi.qinv,
      ?_, by simp, by simp, hi.last, hi.window, by simp, ?_, ?_, hi.sentOk⟩
    · rw [List.pairwise_append]
      refine ⟨hi.sorted, by simp, fun r hr x hx => ?_⟩
      simp at hx; subst hx
      exact hi.ranBefore r hr x (by simp [hh])
    · intro r hr x hx
      simp at hx
      simp at hr
      rcases hr with hr | rfl
      · exact hi.ranBefore r hr x (by simp [hx])
      · exact hi.heldMin r (by simp [hh]) x hx
    · intro r hr
      simp at hr
      rcases hr with hr | rfl
      · exact hi.ranTime r hr
      · simp only; omega
    · intro x hx; simp at hx; exact hi.lower x (by simp [hx])
    · intro now c heq
      injection heq with h1 h2
      subst h1
      exact ⟨rfl, by simp only; omega, by simp only; omega⟩
    · have := hi.last; simp only; omega
  | refused now t p k hp ht heq ho =>
    subst heq
    have hh : held h.phase = [] := by simp [hp]
    have hall : all { h with nextId := h.nextId + 1, phase := .exec now (k false) } = all h := by
      simp [all, hh]
    refine ⟨by rw [hall]; exact hi.distinct, ?_, hi.sorted,
      by simpa [hh] using hi.ranBefore, hi.ranTime, hi.qinv,
      by simpa [hh] using hi.lower, by simp, by simp, hi.last, hi.window,
      by simp, ?_, hi.clk, ?_⟩
    · rw [hall]; intro e he p i hd
      have := hi.localId e he p i hd
      simp only; omega
    · intro now' c heq
      injection heq with h1 h2; subst h1
      exact hi.execNow _ _ hp
    · intro x hx
      obtain ⟨h1, h2, h3, h4, h5, h6, p, i, h7, h8⟩ := hi.sentOk x hx
      exact ⟨h1, h2, h3, h4, h5, h6, p, i, h7, by simp only; omega⟩
  | push now t p k q hp ht hle hq hl heq ho =>
    subst heq
    have hh : held h.phase = [] := by simp [hp]
    obtain ⟨hx1, hx2, hx3⟩ := hi.execNow _ _ hp
    have hdis := hi.distinct
    simp only [all, hh, List.nil_append] at hdis
    have hmemq : ∀ x, x ∈ q.events → x = ⟨t, .local p h.nextId⟩ ∨ x ∈ h.queue.events := by
      intro x hx; rw [hq] at hx; simpa using hx
    have hfresh : ∀ x ∈ all h, ¬ SameId (⟨t, .local p h.nextId⟩ : Event P) x := by
      intro x hx hc
      unfold SameId at hc
      cases hd : x.data with
      | packet a b c => simp [hd] at hc
      | «local» a b =>
        simp [hd] at hc
        have := hi.localId x hx a b hd
        omega
    refine ⟨?_, ?_, hi.sorted, ?_, ?_, ?_, ?_, by simp, by simp,
      by simpa [hl] using hi.last, hi.window, by simp, ?_, hi.clk, ?_⟩
    · simp only [all, held_loop, held_exec, List.nil_append, hq]
      unfold DistinctIds at *
      rw [List.pairwise_append] at *
      obtain ⟨h1, h2, h3⟩ := hdis
      refine ⟨h1, List.pairwise_cons.mpr ⟨fun x hx => hfresh x (by simp [all, hx]), h2⟩, ?_⟩
      intro a ha b hb
      rcases List.mem_cons.mp hb with rfl | hb
      · exact fun hc => hfresh a (by simp [all, ha]) (sameId_symm hc)
      · exact h3 a ha b hb
    · intro x hx p' i hxd
      simp only [all, held_loop, held_exec, List.nil_append, List.mem_append] at hx
      rcases hx with hx | hx
      · have := hi.localId x (by simp [all, hx]) p' i hxd
        simp only; omega
      · rcases hmemq x hx with rfl | hx
        · simp at hxd; simp only; omega
        · have := hi.localId x (by simp [all, hx]) p' i hxd
          simp only; omega
    · intro r hr x hx
      simp only [held_loop, held_exec, List.nil_append] at hx
      rcases hmemq x hx with rfl | hx
      · have hrt := hi.ranTime r hr
        rcases Nat.lt_or_ge r.time t with h1 | h1
        · exact before_of_time h1
        · right
          refine ⟨by simp only; omega, ?_⟩
          cases hd : r.data with
          | packet a b c => simp
          | «local» a b => simpa using hi.localId r (by simp [all, hr]) a b hd
      · exact hi.ranBefore r hr x (by simp [hx])
    · intro r hr; simpa [hl] using hi.ranTime r hr
    · intro x hx
      simp only [hl]
      rcases hmemq x hx with rfl | hx
      · exact hle
      · exact hi.qinv x hx
    · intro x hx
      simp only [held_loop, held_exec, List.nil_append] at hx
      rcases hmemq x hx with rfl | hx
      · simp only; omega
      · exact hi.lower x (by simp [hx])
    · intro now' c heq
      injection heq with h1 h2; subst h1
      simp only [hl]
      exact ⟨hx1, hx2, hx3⟩
    · intro x hx
      obtain ⟨h1, h2, h3, h4, h5, h6, p, i, h7, h8⟩ := hi.sentOk x hx
      exact ⟨h1, h2, h3, h4, h5, h6, p, i, h7, by simp only; omega⟩
  | send now dst lat p k hp hn hdst hlat e he heq ho =>
    subst heq
    have hh : held h.phase = [] := by simp [hp]
    obtain ⟨hx1, hx2, hx3⟩ := hi.execNow _ _ hp
    have hclk := hi.clk
    have hall : all { h with nextId := h.nextId + 1, phase := .exec now k,
                             sent := h.sent ++ [(dst, now, lat, e)] } = all h := by
      simp [all, hh]
    refine ⟨by rw [hall]; exact hi.distinct, ?_, hi.sorted,
      by simpa [hh] using hi.ranBefore, hi.ranTime, hi.qinv,
      by simpa [hh] using hi.lower, by simp, by simp, hi.last, hi.window,
      by simp, ?_, hi.clk, ?_⟩
    · rw [hall]; intro e he p i hd
      have := hi.localId e he p i hd
      simp only; omega
    · intro now' c heq
      injection heq with h1 h2; subst h1
      exact hi.execNow _ _ hp
    · intro x hx
      simp at hx
      rcases hx with hx | rfl
      · obtain ⟨h1, h2, h3, h4, h5, h6, p, i, h7, h8⟩ := hi.sentOk x hx
        exact ⟨h1, h2, h3, h4, h5, h6, p, i, h7, by simp only; omega⟩
      · subst he
        exact ⟨rfl, hdst, hlat, by simp only; omega, by simp only; omega, hn, p, h.nextId, rfl,
          by simp⟩
  | advance now d k hp hle heq ho =>
    subst heq
    have hh : held h.phase = [] := by simp [hp]
    obtain ⟨hx1, hx2, hx3⟩ := hi.execNow _ _ hp
    have hall : all { h with phase := .exec (now + d) (k true), clock := now + d } = all h := by
      simp [all, hh]
    refine ⟨by rw [hall]; exact hi.distinct, by rw [hall]; exact hi.localId, hi.sorted,
      by simpa [hh] using hi.ranBefore, hi.ranTime, hi.qinv,
      by simpa [hh] using hi.lower, by simp, by simp, hi.last, hi.window,
      by simp, ?_, ?_, hi.sentOk⟩
    · intro now' c heq
      injection heq with h1 h2; subst h1
      exact ⟨rfl, hx2, by simp only; omega⟩
    · have := maxRunahead_le re h.queue
      simp only; omega

/-- A packet from another host (or from itself) does not disturb the invariant. -/
theorem deliver_inv {cfg : Cfg} {lo re id : Nat} {h : Host H P} {q : Queue P} {e : Event P}
    (hi : HInv cfg lo re id h) (ht : re ≤ e.time) (hp : h.queue.push e = .ok q)
    (hfresh : ∀ x ∈ all h, ¬ SameId e x) (hnl : ∀ p i, e.data ≠ .local p i) :
    HInv cfg lo re id { h with queue := q } := by
  have hq : q = ⟨e :: h.queue.events, h.queue.lastPopped⟩ := by
    unfold Queue.push at hp
    split at hp
    · simp at hp; exact hp.symm
    · simp at hp
  subst hq
  have hlast := hi.last
  have hwin := hi.window
  refine ⟨?_, ?_, hi.sorted, ?_, hi.ranTime, ?_, ?_, hi.heldTime, ?_, hi.last, hi.window, ?_,
    hi.execNow, hi.clk, hi.sentOk⟩
  · have hperm : (all { h with queue := ⟨e :: h.queue.events, h.queue.lastPopped⟩ }).Perm
        (e :: all h) := by
      simp only [all]
      rw [← List.append_assoc, ← List.append_assoc]
      exact List.perm_middle
    refine distinctIds_perm hperm.symm ?_
    exact List.pairwise_cons.mpr ⟨hfresh, hi.distinct⟩
  · intro x hx p i hd
    simp [all] at hx
    rcases hx with hx | hx | rfl | hx
    · exact hi.localId x (by simp [all, hx]) p i hd
    · exact hi.localId x (by simp [all, hx]) p i hd
    · exact absurd hd (hnl p i)
    · exact hi.localId x (by simp [all, hx]) p i hd
  · intro r hr x hx
    simp at hx
    rcases hx with hx | rfl | hx
    · exact hi.ranBefore r hr x (by simp [hx])
    · have := hi.ranTime r hr
      exact before_of_time (by omega)
    · exact hi.ranBefore r hr x (by simp [hx])
  · intro x hx
    simp at hx
    rcases hx with rfl | hx
    · simp only; omega
    · exact hi.qinv x hx
  · intro x hx
    simp at hx
    rcases hx with hx | rfl | hx
    · exact hi.lower x (by simp [hx])
    · omega
    · exact hi.lower x (by simp [hx])
  · intro x hx y hy
    simp at hy
    rcases hy with rfl | hy
    · have := hi.heldTime x hx
      exact before_of_time (by omega)
    · exact hi.heldMin x hx y hy
  · intro hph x hx
    simp at hx
    rcases hx with rfl | hx
    · exact ht
    · exact hi.over hph x hx

end Shadow.Sim
