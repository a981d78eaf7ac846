import Verif.Event.Model

/-!
# C01, C02: the event order and the event queue

`Before` and `SameId` are the independent specification of the order.
-/
namespace Shadow.Ev

set_option linter.unusedSectionVars false
set_option linter.unusedSimpArgs false

variable {P : Type} [DecidableEq P]

/-- Specification: the deterministic order of events, in words: earlier time first; at equal
    time packets before local tasks; packets by sending host, then by the sender's event number;
    local tasks by event number. -/
def Before (a b : Event P) : Prop :=
  a.time < b.time ∨ (a.time = b.time ∧
    match a.data, b.data with
    | .packet _ s i, .packet _ s' i' => s < s' ∨ (s = s' ∧ i < i')
    | .packet .., .local .. => True
    | .local .., .packet .. => False
    | .local _ i, .local _ i' => i < i')

/-- Specification: the two events carry the same identity. -/
def SameId (a b : Event P) : Prop :=
  match a.data, b.data with
  | .packet _ s i, .packet _ s' i' => s = s' ∧ i = i'
  | .local _ i, .local _ i' => i = i'
  | _, _ => False

/-- The payload (packet or task) of an event. -/
def payload (a : Event P) : P :=
  match a.data with
  | .packet p _ _ => p
  | .local p _ => p

/-! ## C01 -/

theorem before_irrefl (a : Event P) : ¬ Before a a := by
  unfold Before; rcases a with ⟨t, d⟩; cases d <;> simp

theorem before_trans {a b c : Event P} (h1 : Before a b) (h2 : Before b c) : Before a c := by
  unfold Before at *
  rcases a with ⟨t, d⟩; rcases b with ⟨t', d'⟩; rcases c with ⟨t'', d''⟩
  cases d <;> cases d' <;> cases d'' <;> simp_all <;> omega

theorem before_asymm {a b : Event P} (h1 : Before a b) : ¬ Before b a :=
  fun h2 => before_irrefl a (before_trans h1 h2)

/-- Any two events are ordered one way or the other unless they have the same time and the same
    identity. -/
theorem before_trichotomy (a b : Event P) :
    Before a b ∨ Before b a ∨ (a.time = b.time ∧ SameId a b) := by
  unfold Before SameId
  rcases a with ⟨t, d⟩; rcases b with ⟨t', d'⟩
  cases d <;> cases d' <;> simp <;> omega

/-- The order is total on events with distinct identities. -/
theorem before_total (a b : Event P) (h : ¬ SameId a b) : Before a b ∨ Before b a := by
  rcases before_trichotomy a b with h1 | h1 | h1
  · exact .inl h1
  · exact .inr h1
  · exact absurd h1.2 h

/-- The comparison implemented by the code decides exactly the specified order; it yields "not
    comparable" exactly for events at the same time with the same identity but different
    payloads. -/
theorem partialCmp_spec (a b : Event P) :
    (a.partialCmp b = some .lt ↔ Before a b) ∧
    (a.partialCmp b = some .gt ↔ Before b a) ∧
    (a.partialCmp b = some .eq ↔ a = b) ∧
    (a.partialCmp b = none ↔ a.time = b.time ∧ SameId a b ∧ payload a ≠ payload b) := by
  rcases a with ⟨t, d⟩; rcases b with ⟨t', d'⟩
  unfold Event.partialCmp Before SameId payload
  rcases Nat.lt_trichotomy t t' with h | h | h
  · have : compare t t' = .lt := Nat.compare_eq_lt.mpr h
    simp [this]; omega
  · subst h
    have : compare t t = .eq := Nat.compare_eq_eq.mpr rfl
    cases d with
    | packet p s i =>
      cases d' with
      | packet p' s' i' =>
        simp only [this, Data.partialCmp]
        rcases Nat.lt_trichotomy s s' with hs | hs | hs
        · have hc : compare s s' = .lt := Nat.compare_eq_lt.mpr hs
          simp [hc, Ordering.then]; omega
        · subst hs
          have hc : compare s s = .eq := Nat.compare_eq_eq.mpr rfl
          rcases Nat.lt_trichotomy i i' with hi | hi | hi
          · have hci : compare i i' = .lt := Nat.compare_eq_lt.mpr hi
            simp [hc, hci, Ordering.then]; omega
          · subst hi
            have hci : compare i i = .eq := Nat.compare_eq_eq.mpr rfl
            by_cases hp : p = p' <;> simp [hc, hci, Ordering.then, hp]
          · have hci : compare i i' = .gt := Nat.compare_eq_gt.mpr hi
            simp [hc, hci, Ordering.then]; omega
        · have hc : compare s s' = .gt := Nat.compare_eq_gt.mpr hs
          simp [hc, Ordering.then]; omega
      | «local» p' i' => simp [this, Data.partialCmp]
    | «local» p i =>
      cases d' with
      | packet p' s' i' => simp [this, Data.partialCmp]
      | «local» p' i' =>
        simp only [this, Data.partialCmp]
        rcases Nat.lt_trichotomy i i' with hi | hi | hi
        · have hci : compare i i' = .lt := Nat.compare_eq_lt.mpr hi
          simp [hci]; omega
        · subst hi
          have hci : compare i i = .eq := Nat.compare_eq_eq.mpr rfl
          by_cases hp : p = p' <;> simp [hci, hp]
        · have hci : compare i i' = .gt := Nat.compare_eq_gt.mpr hi
          simp [hci]; omega
  · have : compare t t' = .gt := Nat.compare_eq_gt.mpr h
    simp [this]; omega

/-- **C01.** For events with distinct identities the comparison never panics, and its answer is
    the specified total order. -/
theorem C01_comparison_total (a b : Event P) (h : ¬ SameId a b) :
    (a.partialCmp b = some .lt ∧ Before a b) ∨ (a.partialCmp b = some .gt ∧ Before b a) := by
  rcases before_total a b h with h1 | h1
  · exact .inl ⟨(partialCmp_spec a b).1.mpr h1, h1⟩
  · exact .inr ⟨(partialCmp_spec a b).2.1.mpr h1, h1⟩

/-- Non-vacuity: a packet and a task at the same instant, with distinct identities. -/
example : ¬ SameId (P := Nat) ⟨7, .packet 1 2 3⟩ ⟨7, .local 1 3⟩ ∧
    Before (P := Nat) ⟨7, .packet 1 2 3⟩ ⟨7, .local 1 3⟩ := by
  constructor
  · simp [SameId]
  · simp [Before]

/-! ## C02 -/

/-- All events held have pairwise distinct identities. -/
def DistinctIds (es : List (Event P)) : Prop := es.Pairwise (fun a b => ¬ SameId a b)

theorem sameId_symm {a b : Event P} (h : SameId a b) : SameId b a := by
  unfold SameId at *
  rcases a with ⟨t, d⟩; rcases b with ⟨t', d'⟩
  cases d <;> cases d' <;> simp_all

theorem distinctIds_perm {l l' : List (Event P)} (h : l.Perm l') (hd : DistinctIds l) :
    DistinctIds l' :=
  h.pairwise hd (fun hab hba => hab (sameId_symm hba))

/-- Two different members of a list with distinct identities have different identities. -/
theorem distinctIds_mem {l : List (Event P)} (hd : DistinctIds l) {x y : Event P}
    (hx : x ∈ l) (hy : y ∈ l) (hne : x ≠ y) : ¬ SameId x y := by
  induction l with
  | nil => simp at hx
  | cons a l ih =>
    have h := List.pairwise_cons.mp hd
    rcases List.mem_cons.mp hx with hx' | hx' <;> rcases List.mem_cons.mp hy with hy' | hy'
    · exact absurd (hx'.trans hy'.symm) hne
    · exact hx' ▸ h.1 y hy'
    · exact fun hs => h.1 x hx' (hy' ▸ sameId_symm hs)
    · exact ih h.2 hx' hy'

theorem extract_perm {c m : Event P} {es rest : List (Event P)}
    (h : extract c es = .ok (m, rest)) : (m :: rest).Perm (c :: es) := by
  induction es generalizing c m rest with
  | nil => simp [extract] at h; obtain ⟨rfl, rfl⟩ := h; exact List.Perm.refl _
  | cons e es ih =>
    unfold extract at h
    split at h
    · simp at h
    · split at h
      · next m' rest' heq =>
        simp at h; obtain ⟨rfl, rfl⟩ := h
        exact (List.Perm.swap c m' rest').trans ((ih heq).cons c)
      · simp at h
    · split at h
      · next m' rest' heq =>
        simp at h; obtain ⟨rfl, rfl⟩ := h
        exact (List.Perm.swap e m' rest').trans (((ih heq).cons e).trans (List.Perm.swap c e es))
      · simp at h

/-- The extracted event is minimal. -/
theorem extract_min {c m : Event P} {es rest : List (Event P)}
    (h : extract c es = .ok (m, rest)) : ∀ x ∈ c :: es, ¬ Before x m := by
  induction es generalizing c m rest with
  | nil =>
    simp [extract] at h; obtain ⟨rfl, rfl⟩ := h
    intro x hx; simp at hx; subst hx; exact before_irrefl _
  | cons e es ih =>
    unfold extract at h
    split at h
    · simp at h
    · next hgt =>
      split at h
      · next m' rest' heq =>
        simp at h; obtain ⟨rfl, rfl⟩ := h
        have hec : Before e c := (partialCmp_spec c e).2.1.mp hgt
        have hmin := ih heq
        intro x hx
        rcases List.mem_cons.mp hx with rfl | hx
        · intro hb
          exact hmin e (by simp) (before_trans hec hb)
        · exact hmin x hx
      · simp at h
    · next o hne hcmp =>
      split at h
      · next m' rest' heq =>
        simp at h; obtain ⟨rfl, rfl⟩ := h
        have hmin := ih heq
        intro x hx
        rcases List.mem_cons.mp hx with rfl | hx
        · exact hmin x (by simp)
        · rcases List.mem_cons.mp hx with rfl | hx
          · -- x = e, not before c
            intro hb
            have : Before c x ∨ c = x := by
              cases o with
              | lt => exact .inl ((partialCmp_spec c x).1.mp hcmp)
              | eq => exact .inr ((partialCmp_spec c x).2.2.1.mp hcmp)
              | gt => exact absurd rfl hne
            rcases this with h1 | h1
            · exact hmin c (by simp) (before_trans h1 hb)
            · subst h1; exact hmin c (by simp) hb
          · exact hmin x (by simp [hx])
      · simp at h

/-- With distinct identities the extraction never panics. -/
theorem extract_ok (c : Event P) (es : List (Event P)) (hd : DistinctIds (c :: es)) :
    ∃ m rest, extract c es = .ok (m, rest) := by
  induction es generalizing c with
  | nil => exact ⟨c, [], rfl⟩
  | cons e es ih =>
    have hd' := List.pairwise_cons.mp hd
    have hd2 := List.pairwise_cons.mp hd'.2
    have hce : ¬ SameId c e := hd'.1 e (by simp)
    unfold extract
    rcases C01_comparison_total c e hce with ⟨h, _⟩ | ⟨h, _⟩
    · obtain ⟨m, rest, hm⟩ := ih c (List.pairwise_cons.mpr
        ⟨fun x hx => hd'.1 x (by simp [hx]), hd2.2⟩)
      simp [h, hm]
    · obtain ⟨m, rest, hm⟩ := ih e hd'.2
      simp [h, hm]

/-- Queue invariant: nothing queued lies before the last popped time. -/
def QInv (q : Queue P) : Prop := ∀ e ∈ q.events, q.lastPopped ≤ e.time

/-- One pop: it returns a least queued event, removes exactly that one, and moves the clock to
    its time; it returns nothing exactly if the queue is empty. -/
theorem pop_spec (q q' : Queue P) (out : Option (Event P)) (h : q.pop = .ok (out, q')) :
    (out = none ∧ q.events = [] ∧ q' = q) ∨
    (∃ m, out = some m ∧ (m :: q'.events).Perm q.events ∧ (∀ x ∈ q.events, ¬ Before x m) ∧
      q.lastPopped ≤ m.time ∧ q'.lastPopped = m.time) := by
  unfold Queue.pop at h
  split at h
  · next he => simp at h; exact .inl ⟨h.1.symm, he, h.2.symm⟩
  · next c es he =>
    split at h
    · simp at h
    · next m rest hex =>
      split at h
      · next hge =>
        simp at h; obtain ⟨rfl, rfl⟩ := h
        right
        refine ⟨m, rfl, ?_, ?_, hge, rfl⟩
        · rw [he]; exact extract_perm hex
        · rw [he]; exact extract_min hex
      · simp at h

/-- Under the invariant and with distinct identities a pop never panics. -/
theorem pop_ok (q : Queue P) (hi : QInv q) (hd : DistinctIds q.events) :
    ∃ out q', q.pop = .ok (out, q') := by
  unfold Queue.pop
  split
  · exact ⟨none, q, rfl⟩
  · next c es he =>
    rw [he] at hd
    obtain ⟨m, rest, hm⟩ := extract_ok c es hd
    have hmem : m ∈ q.events := by
      rw [he]; exact (extract_perm hm).subset (by simp)
    simp [hm, hi m hmem]

theorem not_before_time {x m : Event P} (h : ¬ Before x m) : m.time ≤ x.time := by
  unfold Before at h
  rcases Nat.lt_or_ge x.time m.time with h1 | h1
  · exact absurd (.inl h1) h
  · exact h1

theorem step_inv (q q' : Queue P) (o : Op P) (out : Option (Event P))
    (hi : QInv q) (h : q.step o = .ok (out, q')) :
    QInv q' ∧ q.lastPopped ≤ q'.lastPopped := by
  cases o with
  | push e =>
    unfold Queue.step Queue.push at h
    by_cases hc : e.time ≥ q.lastPopped
    · simp [hc] at h; obtain ⟨-, rfl⟩ := h
      refine ⟨?_, Nat.le_refl _⟩
      intro x hx
      rcases List.mem_cons.mp hx with rfl | hx
      · exact hc
      · exact hi x hx
    · simp [hc] at h
  | pop =>
    rcases pop_spec q q' out h with ⟨-, -, rfl⟩ | ⟨m, -, hp, hmin, hle, hlast⟩
    · exact ⟨hi, Nat.le_refl _⟩
    · refine ⟨?_, by omega⟩
      intro x hx
      rw [hlast]
      exact not_before_time (hmin x (hp.subset (by simp [hx])))

/-- The events pushed in a history. -/
def pushed : List (Op P) → List (Event P)
  | [] => []
  | .push e :: os => e :: pushed os
  | .pop :: os => pushed os

/-- **C02 (conservation).** In every history that runs to completion, the popped events together
    with the events still queued are exactly the initially queued and the pushed ones. -/
theorem C02_conservation (q q' : Queue P) (ops : List (Op P)) (outs : List (Event P))
    (h : q.run ops = .ok (outs, q')) :
    (outs ++ q'.events).Perm (q.events ++ pushed ops) := by
  induction ops generalizing q outs with
  | nil => simp [Queue.run] at h; obtain ⟨rfl, rfl⟩ := h; simp [pushed]
  | cons o os ih =>
    unfold Queue.run at h
    split at h
    · simp at h
    · next out q1 hs =>
      split at h
      · simp at h
      · next outs1 q2 hr =>
        simp at h; obtain ⟨rfl, rfl⟩ := h
        have ih1 := ih q1 outs1 hr
        cases o with
        | push e =>
          unfold Queue.step Queue.push at hs
          by_cases hc : e.time ≥ q.lastPopped
          · simp [hc] at hs; obtain ⟨rfl, rfl⟩ := hs
            simp only [Option.toList, List.nil_append, pushed]
            refine ih1.trans ?_
            simp only [List.cons_append]
            exact List.perm_middle.symm
          · simp [hc] at hs
        | pop =>
          rcases pop_spec q q1 out hs with ⟨rfl, -, rfl⟩ | ⟨m, rfl, hp, -⟩
          · simpa [pushed] using ih1
          · simp only [Option.toList, pushed, List.cons_append, List.nil_append]
            refine (ih1.cons m).trans ?_
            rw [← List.cons_append]
            exact hp.append_right _

/-- **C02 (time monotone).** The popped times never decrease, and none is before the starting
    clock. -/
theorem C02_monotone (q q' : Queue P) (ops : List (Op P)) (outs : List (Event P))
    (h : q.run ops = .ok (outs, q')) :
    (outs.map (·.time)).Pairwise (· ≤ ·) ∧ (∀ e ∈ outs, q.lastPopped ≤ e.time) ∧
      q.lastPopped ≤ q'.lastPopped := by
  induction ops generalizing q outs with
  | nil => simp [Queue.run] at h; obtain ⟨rfl, rfl⟩ := h; simp
  | cons o os ih =>
    unfold Queue.run at h
    split at h
    · simp at h
    · next out q1 hs =>
      split at h
      · simp at h
      · next outs1 q2 hr =>
        simp at h; obtain ⟨rfl, rfl⟩ := h
        obtain ⟨ih1, ih2, ih3⟩ := ih q1 outs1 hr
        cases o with
        | push e =>
          unfold Queue.step Queue.push at hs
          by_cases hc : e.time ≥ q.lastPopped
          · simp [hc] at hs; obtain ⟨rfl, rfl⟩ := hs
            simpa using ⟨ih1, ih2, ih3⟩
          · simp [hc] at hs
        | pop =>
          rcases pop_spec q q1 out hs with ⟨rfl, -, rfl⟩ | ⟨m, rfl, -, -, hle, hlast⟩
          · simpa using ⟨ih1, ih2, ih3⟩
          · simp only [Option.toList, List.cons_append, List.nil_append, List.map_cons,
              List.pairwise_cons, List.mem_map, forall_exists_index, and_imp,
              forall_apply_eq_imp_iff₂, List.mem_cons, forall_eq_or_imp]
            refine ⟨⟨fun e he => ?_, ih1⟩, ⟨hle, fun e he => ?_⟩, by omega⟩
            · have := ih2 e he; omega
            · have := ih2 e he; omega

/-- **C02 (push into the past).** A push is accepted exactly if it is not before the last popped
    time; otherwise it panics. -/
theorem C02_push_past (q : Queue P) (e : Event P) :
    (q.push e = .panic ↔ e.time < q.lastPopped) ∧
    (q.lastPopped ≤ e.time → ∃ q', q.push e = .ok q' ∧ q'.events.Perm (e :: q.events) ∧
      q'.lastPopped = q.lastPopped) := by
  unfold Queue.push
  constructor
  · by_cases h : e.time ≥ q.lastPopped
    · simp [h]
    · simp [h]; omega
  · intro h
    exact ⟨{ q with events := e :: q.events }, by simp [h], List.Perm.refl _, rfl⟩

theorem foldl_min_spec (es : List (Event P)) (a : Nat) :
    let r := es.foldl (fun acc e => min acc e.time) a
    (r ≤ a ∧ ∀ e ∈ es, r ≤ e.time) ∧ (r = a ∨ ∃ e ∈ es, r = e.time) := by
  induction es generalizing a with
  | nil => simp
  | cons e es ih =>
    simp only [List.foldl_cons]
    obtain ⟨⟨h1, h2⟩, h3⟩ := ih (min a e.time)
    refine ⟨⟨by omega, ?_⟩, ?_⟩
    · intro x hx
      rcases List.mem_cons.mp hx with rfl | hx
      · omega
      · exact h2 x hx
    · rcases h3 with h3 | ⟨x, hx, h3⟩
      · rcases Nat.le_total a e.time with h4 | h4
        · left; omega
        · right; exact ⟨e, by simp, by omega⟩
      · right; exact ⟨x, by simp [hx], h3⟩

/-- `next_event_time` is the earliest queued time, in any state of the queue. -/
theorem nextEventTime_spec (q : Queue P) :
    (q.nextEventTime = none ↔ q.events = []) ∧
    (∀ t, q.nextEventTime = some t ↔
      ((∃ e ∈ q.events, e.time = t) ∧ ∀ e ∈ q.events, t ≤ e.time)) := by
  unfold Queue.nextEventTime
  cases hq : q.events with
  | nil => simp
  | cons c es =>
    simp only [Option.some.injEq]
    have h := foldl_min_spec es c.time
    simp only at h
    generalize es.foldl (fun acc e => min acc e.time) c.time = r at h ⊢
    obtain ⟨⟨h1, h2⟩, h3⟩ := h
    constructor
    · simp
    · intro t
      constructor
      · rintro rfl
        refine ⟨?_, ?_⟩
        · rcases h3 with h3 | ⟨x, hx, h3⟩
          · exact ⟨c, by simp, h3.symm⟩
          · exact ⟨x, by simp [hx], h3.symm⟩
        · intro e he
          rcases List.mem_cons.mp he with rfl | he
          · exact h1
          · exact h2 e he
      · rintro ⟨⟨e, he, rfl⟩, hall⟩
        have ha : r ≤ e.time := by
          rcases List.mem_cons.mp he with rfl | he
          · exact h1
          · exact h2 e he
        have hb : e.time ≤ r := by
          rcases h3 with h3 | ⟨x, hx, h3⟩
          · rw [h3]; exact hall c (by simp)
          · rw [h3]; exact hall x (by simp [hx])
        omega

/-- **C02 (advertised time).** The advertised next-event time is the time of the event the next
    pop returns. -/
theorem C02_next_is_pop (q q' : Queue P) (m : Event P) (h : q.pop = .ok (some m, q')) :
    q.nextEventTime = some m.time := by
  rcases pop_spec q q' _ h with ⟨h1, -⟩ | ⟨m', h1, hp, hmin, -⟩
  · simp at h1
  · simp at h1; subst h1
    rw [(nextEventTime_spec q).2]
    exact ⟨⟨m, hp.subset (by simp), rfl⟩, fun e he => not_before_time (hmin e he)⟩

/-- **C02 (no panic).** Starting from a fresh queue, a history in which all pushed events carry
    distinct identities and each push is not before the last popped time never panics; more
    precisely the only possible failure of the history is a push into the past. -/
theorem C02_no_panic (q : Queue P) (ops : List (Op P)) (hi : QInv q)
    (hd : DistinctIds (q.events ++ pushed ops)) :
    (∃ outs q', q.run ops = .ok (outs, q')) ∨
    (∃ pre e post outs q1, ops = pre ++ .push e :: post ∧ q.run pre = .ok (outs, q1) ∧
      e.time < q1.lastPopped) := by
  induction ops generalizing q with
  | nil => exact .inl ⟨[], q, rfl⟩
  | cons o os ih =>
    cases o with
    | push e =>
      by_cases hc : e.time ≥ q.lastPopped
      · have hs : q.step (.push e) = .ok (none, { q with events := e :: q.events }) := by
          simp [Queue.step, Queue.push, hc]
        have hi' := (step_inv q _ _ _ hi hs).1
        have hd' : DistinctIds (({ q with events := e :: q.events } : Queue P).events
            ++ pushed os) := by
          simp only [List.cons_append]
          exact distinctIds_perm List.perm_middle hd
        rcases ih _ hi' hd' with ⟨outs, q', hr⟩ | ⟨pre, e', post, outs, q1, h1, h2, h3⟩
        · exact .inl ⟨outs, q', by simp [Queue.run, hs, hr]⟩
        · refine .inr ⟨.push e :: pre, e', post, outs, q1, by simp [h1], ?_, h3⟩
          simp [Queue.run, hs, h2]
      · exact .inr ⟨[], e, os, [], q, rfl, rfl, by omega⟩
    | pop =>
      have hdq : DistinctIds q.events := (List.pairwise_append.mp hd).1
      obtain ⟨out, q1, hp⟩ := pop_ok q hi hdq
      have hs : q.step .pop = .ok (out, q1) := hp
      have hi' := (step_inv q _ _ _ hi hs).1
      have hd' : DistinctIds (q1.events ++ pushed os) := by
        rcases pop_spec q q1 out hp with ⟨-, -, rfl⟩ | ⟨m, -, hperm, -⟩
        · exact hd
        · have := distinctIds_perm (hperm.symm.append_right (pushed os)) hd
          exact (List.pairwise_cons.mp this).2
      rcases ih q1 hi' hd' with ⟨outs, q', hr⟩ | ⟨pre, e', post, outs, q2, h1, h2, h3⟩
      · exact .inl ⟨out.toList ++ outs, q', by simp [Queue.run, hs, hr]⟩
      · refine .inr ⟨.pop :: pre, e', post, out.toList ++ outs, q2, by simp [h1], ?_, h3⟩
        simp [Queue.run, hs, h2]

/-- **C02 (insertion-order independence).** The popped event depends only on which events are
    queued, not on the order in which they were pushed. -/
theorem C02_pop_deterministic (q1 q2 q1' q2' : Queue P) (o1 o2 : Option (Event P))
    (hp : q1.events.Perm q2.events) (hd : DistinctIds q1.events)
    (h1 : q1.pop = .ok (o1, q1')) (h2 : q2.pop = .ok (o2, q2')) :
    o1 = o2 ∧ q1'.events.Perm q2'.events := by
  rcases pop_spec q1 q1' o1 h1 with ⟨rfl, he1, rfl⟩ | ⟨m1, rfl, hp1, hmin1, -⟩ <;>
  rcases pop_spec q2 q2' o2 h2 with ⟨rfl, he2, rfl⟩ | ⟨m2, rfl, hp2, hmin2, -⟩
  · exact ⟨rfl, hp⟩
  · rw [he1] at hp
    have := hp.symm.eq_nil ▸ hp2
    exact absurd this.length_eq (by simp)
  · rw [he2] at hp
    have := hp.eq_nil ▸ hp1
    exact absurd this.length_eq (by simp)
  · have hm1 : m1 ∈ q1.events := hp1.subset (by simp)
    have hm2 : m2 ∈ q1.events := hp.symm.subset (hp2.subset (by simp))
    have heq : m1 = m2 := by
      by_cases hne : m1 = m2
      · exact hne
      · exfalso
        have hall : ∀ x ∈ q1.events, ∀ y ∈ q1.events, x ≠ y → ¬ SameId x y := by
          intro x hx y hy hxy
          exact distinctIds_mem hd hx hy hxy
        rcases before_total m1 m2 (hall m1 hm1 m2 hm2 hne) with h | h
        · exact hmin2 m1 (hp.subset hm1) h
        · exact hmin1 m2 hm2 h
    subst heq
    exact ⟨rfl, List.Perm.cons_inv (hp1.trans (hp.trans hp2.symm))⟩

/-- Non-vacuity: a concrete history satisfying the hypotheses of the theorems above, with two
    events at the same time. -/
example :
    (Queue.new 10 : Queue Nat).run
      [.push ⟨20, .local 1 0⟩, .push ⟨20, .packet 5 3 9⟩, .pop, .push ⟨30, .local 2 1⟩, .pop, .pop]
    = .ok ([⟨20, .packet 5 3 9⟩, ⟨20, .local 1 0⟩, ⟨30, .local 2 1⟩], ⟨[], 30⟩) := by
  decide

end Shadow.Ev
