import Verif.Codel.Model

/-!
# C14: the router queue
-/
namespace Shadow.Codel

open Shadow.Base

variable {π : Type}

/-! ### Specification: what happened -/

/-- An arrival: the packet and its time. -/
abbrev Arrival (π : Type) := Packet π × Nat

def bytes (w : List (Arrival π)) : Nat := (w.map (fun a => a.1.len)).sum

/-- A packet that left the queue, with the number of bytes queued behind it; or the observation that the
    queue was empty. -/
inductive Entry (π : Type) where
  | out (packet : Packet π) (arrived left behind : Nat) (dropped : Bool)
  | empty (at_ : Nat)

/-- The packet had waited for at least the target delay, with more than one MTU behind it. -/
def Entry.Bad : Entry π → Prop
  | .out _ arrived left behind _ => target ≤ left - arrived ∧ mtu < behind
  | .empty _ => False

def Entry.time : Entry π → Nat
  | .out _ _ left _ _ => left
  | .empty t => t

def Entry.isOut : Entry π → Bool
  | .out .. => true
  | .empty _ => false

def Entry.arrival : Entry π → Option (Arrival π)
  | .out p a _ _ _ => some (p, a)
  | .empty _ => none

/-- The arrivals that have not left. -/
def waiting (arrived : List (Arrival π)) (log : List (Entry π)) : List (Arrival π) := arrived.drop (log.countP Entry.isOut)

/-- The record of a call that dropped the first `n` waiting packets and then returned one or not. -/
def record (now : Nat) : List (Arrival π) → Nat → Bool → List (Entry π)
  | [], _, _ => [.empty now]
  | (p, t) :: w, n + 1, f => .out p t now (bytes w) true :: record now w n f
  | (p, t) :: w, 0, true => [.out p t now (bytes w) false]
  | _ :: _, 0, false => []

/-- Histories of a queue at times that do not decrease: everything that arrived, everything that left. -/
inductive Run (law : Nat → Nat) : Queue π → List (Arrival π) → List (Entry π) → Nat → Prop where
  | new : Run law Queue.new [] [] 0
  | push {q arrived log last now p} : Run law q arrived log last → last ≤ now →
      Run law (q.push p now) (arrived ++ [(p, now)]) log now
  | pop {q q' arrived log last now drops fwd} : Run law q arrived log last → last ≤ now →
      q.pop law now = .ok (q', drops, fwd) →
      Run law q' arrived (log ++ record now (waiting arrived log) drops.length fwd.isSome) now

/-- Every packet that left since some entry `f`, at least an interval ago, was bad. -/
def Ripe (log : List (Entry π)) (now : Nat) : Prop :=
  ∃ l0 f l1, log = l0 ++ f :: l1 ∧ f.time + interval ≤ now ∧ ∀ x ∈ f :: l1, x.Bad

/-- Every drop is justified by what happened before it. -/
def Legit (log : List (Entry π)) : Prop :=
  ∀ l1 p t n b l2, log = l1 ++ .out p t n b true :: l2 → (target ≤ n - t ∧ mtu < b) ∧ Ripe l1 n

/-! ### Invariant -/

def toElem (a : Arrival π) : Elem π := ⟨a.1, a.2⟩

/-- The queue holds `w`, given what was logged. -/
structure Inv (q : Queue π) (w : List (Arrival π)) (log : List (Entry π)) (last : Nat) : Prop where
  elems : q.elements = w.map toElem
  total : q.totalBytes = bytes w
  times : ∀ a ∈ w, a.2 ≤ last
  next : q.mode = .drop → q.dropNext ≠ none
  above : ∀ e, q.intervalEnd = some e → ∃ l0 f l1, log = l0 ++ f :: l1 ∧ e = f.time + interval ∧ ∀ x ∈ f :: l1, x.Bad

theorem bytes_cons (a : Arrival π) (w : List (Arrival π)) : bytes (a :: w) = a.1.len + bytes w := by simp [bytes]

theorem bytes_nil : bytes ([] : List (Arrival π)) = 0 := rfl

theorem bytes_append (w v : List (Arrival π)) : bytes (w ++ v) = bytes w + bytes v := by simp [bytes]

/-- `codel_pop` on a nonempty queue. -/
theorem codelPop_cons {q : Queue π} {p : Packet π} {t : Nat} {w : List (Arrival π)} {log : List (Entry π)} {now : Nat}
    (h : Inv q ((p, t) :: w) log now) :
    ∃ q1 ok, q.codelPop now = .ok (q1, some ⟨p, ok⟩) ∧ q1.mode = q.mode ∧ q1.dropNext = q.dropNext ∧
      q1.currentDropCount = q.currentDropCount ∧ q1.previousDropCount = q.previousDropCount ∧
      (∀ d, Inv q1 w (log ++ [.out p t now (bytes w) d]) now) ∧
      (ok = true → (target ≤ now - t ∧ mtu < bytes w) ∧ Ripe log now) := by
  obtain ⟨he, ht, hti, hn, ha⟩ := h
  have htot : q.totalBytes - p.len = bytes w := by rw [ht, bytes_cons]; exact Nat.add_sub_cancel_left ..
  unfold Queue.codelPop
  rw [he]
  simp only [List.map_cons, toElem]
  have h1 : decide (p.len ≤ q.totalBytes) = true := by
    rw [ht, bytes_cons]; exact decide_eq_true (Nat.le_add_right ..)
  have h2 : decide (now ≥ t) = true := decide_eq_true (hti (p, t) (List.mem_cons_self ..))
  simp only [h1, h2, R.assert_true, R.bind_ok]
  rw [htot]
  unfold Queue.processStandingDelay
  have htw : ∀ a ∈ w, a.2 ≤ now := fun a ha => hti a (List.mem_cons_of_mem _ ha)
  by_cases hg : now - t < target ∨ bytes w ≤ mtu
  · rw [if_pos hg]
    refine ⟨_, _, rfl, rfl, rfl, rfl, rfl, fun d => ⟨rfl, rfl, htw, hn, ?_⟩, ?_⟩
    · intro e hh; cases hh
    · intro hh; cases hh
  · rw [if_neg hg]
    have hbad : target ≤ now - t ∧ mtu < bytes w := by omega
    cases hie : q.intervalEnd with
    | some e =>
      obtain ⟨l0, f, l1, e1, e2, e3⟩ := ha e hie
      refine ⟨_, _, rfl, rfl, rfl, rfl, rfl, fun d => ⟨rfl, rfl, htw, hn, ?_⟩, ?_⟩
      · intro e' hh
        have : e = e' := Option.some.inj hh
        subst this
        refine ⟨l0, f, l1 ++ [.out p t now (bytes w) d], by rw [e1]; simp, e2, ?_⟩
        intro x hx
        rw [← List.cons_append] at hx
        rcases List.mem_append.1 hx with hx | hx
        · exact e3 x hx
        · rw [List.mem_singleton.1 hx]; exact hbad
      · intro hh
        have hh : now ≥ e := by simpa using hh
        exact ⟨hbad, l0, f, l1, e1, by omega, e3⟩
    | none =>
      refine ⟨_, _, rfl, rfl, rfl, rfl, rfl, fun d => ⟨rfl, rfl, htw, hn, ?_⟩, ?_⟩
      · intro e' hh
        cases hh
        refine ⟨log, .out p t now (bytes w) d, [], rfl, rfl, ?_⟩
        intro x hx
        rw [List.mem_singleton.1 hx]; exact hbad
      · intro hh; cases hh

theorem codelPop_nil {q : Queue π} {log : List (Entry π)} {now : Nat} (h : Inv q [] log now) :
    ∃ q1, q.codelPop now = .ok (q1, none) ∧ q1.mode = q.mode ∧ q1.dropNext = q.dropNext ∧
      q1.currentDropCount = q.currentDropCount ∧ q1.previousDropCount = q.previousDropCount ∧
      q1.intervalEnd = none ∧ Inv q1 [] (log ++ [.empty now]) now := by
  unfold Queue.codelPop
  rw [h.elems]
  refine ⟨_, rfl, rfl, rfl, rfl, rfl, rfl, ⟨by simp, h.total, h.times, h.next, ?_⟩⟩
  intro e hh; cases hh

/-- Changing the counters, the mode or the next drop time keeps the invariant. -/
theorem Inv.congr {q q' : Queue π} {w log last} (h : Inv q w log last) (h1 : q'.elements = q.elements)
    (h2 : q'.totalBytes = q.totalBytes) (h3 : q'.mode = .drop → q'.dropNext ≠ none) (h4 : q'.intervalEnd = q.intervalEnd) :
    Inv q' w log last := ⟨h1 ▸ h.elems, h2 ▸ h.total, h.times, h3, h4 ▸ h.above⟩

theorem snoc_split {α : Type} {l l1 l2 : List α} {x y : α} (e : l ++ [x] = l1 ++ y :: l2) :
    (l2 = [] ∧ l1 = l ∧ y = x) ∨ ∃ l2', l2 = l2' ++ [x] ∧ l = l1 ++ y :: l2' := by
  rcases List.eq_nil_or_concat l2 with rfl | ⟨l2', z, rfl⟩
  · have h := List.append_inj' e rfl
    have h2 := List.singleton_inj.1 h.2
    exact .inl ⟨rfl, h.1.symm, h2.symm⟩
  · rw [List.concat_eq_append, ← List.cons_append, ← List.append_assoc] at e
    have h := List.append_inj' e rfl
    have h2 := List.singleton_inj.1 h.2
    subst h2
    exact .inr ⟨l2', by simp, h.1⟩

theorem Legit.snoc {log : List (Entry π)} (h : Legit log) (x : Entry π)
    (hx : ∀ p t n b, x = .out p t n b true → (target ≤ n - t ∧ mtu < b) ∧ Ripe log n) : Legit (log ++ [x]) := by
  intro l1 p t n b l2 e
  rcases snoc_split e with ⟨_, rfl, e2⟩ | ⟨l2', _, e2⟩
  · exact hx p t n b e2.symm
  · exact h l1 p t n b l2' e2

/-- What a call did: it dropped the first packets and returned the next, all in order of arrival. -/
structure Did (q' : Queue π) (w : List (Arrival π)) (log : List (Entry π)) (now : Nat) (drops : List (Packet π))
    (fwd : Option (Packet π)) : Prop where
  order : drops ++ fwd.toList = (w.take (drops.length + fwd.toList.length)).map (·.1)
  some_ : w ≠ [] → fwd.isSome = true
  inv : Inv q' (w.drop (drops.length + fwd.toList.length)) (log ++ record now w drops.length fwd.isSome) now
  legit : Legit (log ++ record now w drops.length fwd.isSome)

/-- Returning the pending packet. -/
theorem did_return {q : Queue π} {p : Packet π} {t : Nat} {w : List (Arrival π)} {log : List (Entry π)} {now : Nat}
    (h : Inv q w (log ++ [.out p t now (bytes w) false]) now) (hl : Legit log) :
    Did q ((p, t) :: w) log now [] (some p) := by
  refine ⟨rfl, fun _ => rfl, h, hl.snoc _ ?_⟩
  intro _ _ _ _ hh; cases hh

/-- Dropping the pending packet before the rest. -/
theorem did_drop {q' : Queue π} {p : Packet π} {t : Nat} {w : List (Arrival π)} {log : List (Entry π)} {now : Nat}
    {drops : List (Packet π)} {fwd : Option (Packet π)} (hw : w ≠ [])
    (h : Did q' w (log ++ [.out p t now (bytes w) true]) now drops fwd) :
    Did q' ((p, t) :: w) log now (p :: drops) fwd := by
  obtain ⟨h1, h2, h3, h4⟩ := h
  have hlen : (p :: drops).length + fwd.toList.length = (drops.length + fwd.toList.length) + 1 := by simp; omega
  refine ⟨?_, fun _ => h2 hw, ?_, ?_⟩
  · rw [hlen, List.take_succ_cons, List.map_cons, List.cons_append, h1]
  · rw [hlen, List.drop_succ_cons]
    simpa [record] using h3
  · simpa [record] using h4

theorem ne_nil_of_bytes {w : List (Arrival π)} (h : mtu < bytes w) : w ≠ [] := by
  rintro rfl
  rw [bytes_nil] at h
  exact Nat.not_lt_zero _ h

/-- The loop, with the packet `p` pending. -/
theorem dropLoop_did {law : Nat → Nat} : ∀ (fuel : Nat) {q : Queue π} {p : Packet π} {t : Nat} {w : List (Arrival π)}
    {log : List (Entry π)} {now : Nat} {ok : Bool}, w.length < fuel →
    (∀ d, Inv q w (log ++ [.out p t now (bytes w) d]) now) → Legit log →
    (q.mode = .drop → (target ≤ now - t ∧ mtu < bytes w) ∧ Ripe log now) →
    ∃ q' drops fwd, q.dropLoop law now fuel (some ⟨p, ok⟩) = .ok (q', drops, fwd) ∧
      Did q' ((p, t) :: w) log now drops fwd := by
  intro fuel
  induction fuel with
  | zero => intro q p t w log now ok hf; exact absurd hf (Nat.not_lt_zero _)
  | succ fuel ih =>
    intro q p t w log now ok hf hi hl hr
    by_cases hc : q.mode = .drop ∧ q.shouldDrop now = true
    · obtain ⟨hbad, hripe⟩ := hr hc.1
      have hw := ne_nil_of_bytes hbad.2
      have hl' : Legit (log ++ [.out p t now (bytes w) true]) := by
        refine hl.snoc _ ?_
        intro _ _ _ _ hh; cases hh; exact ⟨hbad, hripe⟩
      have hi' := (hi true).congr (q' := { q with currentDropCount := q.currentDropCount + 1 }) rfl rfl (hi true).next rfl
      cases hwe : w with
      | nil => exact absurd hwe hw
      | cons a w' =>
        obtain ⟨p', t'⟩ := a
        rw [hwe] at hi'
        obtain ⟨q1, ok', e1, m1, d1, c1, v1, i1, r1⟩ := codelPop_cons hi'
        have hq2 : ∃ q2, q1.afterDrop law (some ⟨p', ok'⟩) = .ok q2 ∧ q2.elements = q1.elements ∧
            q2.totalBytes = q1.totalBytes ∧ q2.intervalEnd = q1.intervalEnd ∧ (q2.mode = .drop → ok' = true) ∧
            (q2.mode = .drop → q2.dropNext ≠ none) := by
          cases ok' with
          | false => exact ⟨_, rfl, rfl, rfl, rfl, by simp, by simp⟩
          | true =>
            have : q1.dropNext ≠ none := by rw [d1]; exact (hi true).next hc.1
            cases hd : q1.dropNext with
            | none => exact absurd hd this
            | some nx => exact ⟨{ q1 with dropNext := some (nx + law q1.currentDropCount) }, by simp [Queue.afterDrop, hd, R.unwrap, R.bind_ok, R.pure_eq], rfl, rfl, rfl, fun _ => rfl, fun _ => by simp⟩
        obtain ⟨q2, e2, el2, tb2, ie2, ok2, dn2⟩ := hq2
        subst hwe
        obtain ⟨q', drops, fwd, e3, did⟩ := ih (q := q2) (p := p') (t := t') (w := w') (ok := ok')
          (log := log ++ [.out p t now (bytes ((p', t') :: w')) true]) (now := now)
          (by simp at hf; omega) (fun d => (i1 d).congr el2 tb2 dn2 ie2) hl' (fun hm => r1 (ok2 hm))
        refine ⟨q', p :: drops, fwd, ?_, did_drop hw did⟩
        rw [Queue.dropLoop]
        simp only [if_pos hc, e1, R.bind_ok, e2, e3, R.pure_eq]
    · refine ⟨q, [], some p, ?_, did_return (hi false) hl⟩
      rw [Queue.dropLoop]
      simp only [if_neg hc]

theorem pop_did {law : Nat → Nat} {q : Queue π} {w : List (Arrival π)} {log : List (Entry π)} {now : Nat}
    (h : Inv q w log now) (hl : Legit log) :
    ∃ q' drops fwd, q.pop law now = .ok (q', drops, fwd) ∧ Did q' w log now drops fwd := by
  cases w with
  | nil =>
    obtain ⟨q1, e1, _, _, _, _, _, i1⟩ := codelPop_nil h
    refine ⟨{ q1 with mode := .store }, [], none, ?_, rfl, fun hh => absurd rfl hh, ?_, ?_⟩
    · unfold Queue.pop; rw [e1, R.bind_ok]; rfl
    · exact i1.congr rfl rfl (fun hh => by cases hh) rfl
    · refine hl.snoc _ ?_
      intro _ _ _ _ hh; cases hh
  | cons a w =>
    obtain ⟨p, t⟩ := a
    obtain ⟨q1, ok, e1, m1, d1, c1, v1, i1, r1⟩ := codelPop_cons h
    unfold Queue.pop
    rw [e1, R.bind_ok]
    cases ok with
    | false =>
      refine ⟨{ q1 with mode := .store }, [], some p, rfl, did_return ?_ hl⟩
      exact (i1 false).congr rfl rfl (fun hh => by cases hh) rfl
    | true =>
      obtain ⟨hbad, hripe⟩ := r1 rfl
      have hw := ne_nil_of_bytes hbad.2
      dsimp only
      rw [if_pos rfl]
      by_cases hm : q1.mode = .store
      · rw [if_pos hm]
        unfold Queue.dropFromStoreMode
        rw [decide_eq_true hm, R.assert_true, R.bind_ok]
        have hl' : Legit (log ++ [.out p t now (bytes w) true]) := by
          refine hl.snoc _ ?_
          intro _ _ _ _ hh; cases hh; exact ⟨hbad, hripe⟩
        cases w with
        | nil => exact absurd rfl hw
        | cons a' w' =>
          obtain ⟨p', t'⟩ := a'
          obtain ⟨q2, ok2, e2, m2, d2, c2, v2, i2, r2⟩ := codelPop_cons (i1 true)
          rw [e2, R.bind_ok]
          refine ⟨_, [p], some p', rfl, did_drop hw (did_return ?_ hl')⟩
          exact (i2 false).congr rfl rfl (fun _ => by simp) rfl
      · rw [if_neg hm]
        have hd : q1.mode = .drop := by
          cases hh : q1.mode with
          | store => exact absurd hh hm
          | drop => rfl
        unfold Queue.dropFromDropMode
        rw [decide_eq_true hd, R.assert_true, R.bind_ok]
        refine dropLoop_did _ ?_ i1 hl (fun _ => ⟨hbad, hripe⟩)
        rw [(i1 true).elems]; simp

/-! ### Histories -/

theorem record_facts (now : Nat) : ∀ (w : List (Arrival π)) (n : Nat) (f : Option (Packet π)),
    n + f.toList.length ≤ w.length →
    (record now w n f.isSome).countP Entry.isOut = n + f.toList.length ∧
      (record now w n f.isSome).filterMap Entry.arrival = w.take (n + f.toList.length) := by
  intro w
  induction w with
  | nil =>
    intro n f h
    have hz : n + f.toList.length = 0 := Nat.le_zero.1 h
    rw [hz]; exact ⟨rfl, rfl⟩
  | cons a w ih =>
    obtain ⟨p, t⟩ := a
    intro n f h
    cases n with
    | succ n =>
      have := ih n f (by simp at h ⊢; omega)
      have e : n + 1 + f.toList.length = (n + f.toList.length) + 1 := by omega
      simp only [record, List.countP_cons, List.filterMap_cons, Entry.isOut, Entry.arrival, this.1, this.2, e, List.take_succ_cons]
      simp
    | zero =>
      cases f with
      | none => exact ⟨rfl, rfl⟩
      | some x => exact ⟨rfl, rfl⟩

theorem Did.len_le {q' : Queue π} {w log now drops fwd} (h : Did q' w log now drops fwd) :
    drops.length + fwd.toList.length ≤ w.length := by
  have := congrArg List.length h.order
  simp at this
  omega

theorem Run.inv {law : Nat → Nat} {q : Queue π} {arrived log last} (h : Run law q arrived log last) :
    Inv q (waiting arrived log) log last ∧ Legit log ∧
      log.filterMap Entry.arrival = arrived.take (log.countP Entry.isOut) ∧ log.countP Entry.isOut ≤ arrived.length := by
  induction h with
  | new =>
    refine ⟨⟨rfl, rfl, ?_, ?_, ?_⟩, ?_, rfl, Nat.le_refl _⟩
    · intro a ha; cases ha
    · intro h; cases h
    · intro e h; cases h
    · intro l1 p t n b l2 h; simp at h
  | @push q arrived log last now p hr hle ih =>
    obtain ⟨⟨e1, e2, e3, e4, e5⟩, hl, hf, hc⟩ := ih
    have hw : waiting (arrived ++ [(p, now)]) log = waiting arrived log ++ [(p, now)] := by
      unfold waiting
      rw [List.drop_append_of_le_length hc]
    refine ⟨⟨?_, ?_, ?_, e4, e5⟩, hl, ?_, ?_⟩
    · rw [hw, List.map_append, ← e1]; rfl
    · rw [hw, bytes_append, ← e2]; simp [Queue.push, bytes]
    · intro a ha
      rw [hw] at ha
      rcases List.mem_append.1 ha with ha | ha
      · exact Nat.le_trans (e3 a ha) hle
      · rw [List.mem_singleton.1 ha]; exact Nat.le_refl _
    · rw [hf, List.take_append_of_le_length hc]
    · simp; omega
  | @pop q q' arrived log last now drops fwd hr hle he ih =>
    obtain ⟨hi, hl, hf, hc⟩ := ih
    have hi' : Inv q (waiting arrived log) log now := ⟨hi.elems, hi.total, fun a ha => Nat.le_trans (hi.times a ha) hle, hi.next, hi.above⟩
    obtain ⟨q2, drops2, fwd2, e2, did⟩ := pop_did (law := law) hi' hl
    rw [he] at e2
    obtain ⟨rfl, rfl, rfl⟩ : q' = q2 ∧ drops = drops2 ∧ fwd = fwd2 := by
      have := R.ok.inj e2
      exact ⟨congrArg (·.1) this, congrArg (·.2.1) this, congrArg (·.2.2) this⟩
    have hlen := did.len_le
    obtain ⟨r1, r2⟩ := record_facts now _ _ _ hlen
    have hwl : (waiting arrived log).length = arrived.length - log.countP Entry.isOut := by simp [waiting]
    refine ⟨?_, did.legit, ?_, ?_⟩
    · have := did.inv
      have hw : waiting arrived (log ++ record now (waiting arrived log) drops.length fwd.isSome) =
          (waiting arrived log).drop (drops.length + fwd.toList.length) := by
        rw [waiting, List.countP_append, r1, waiting, List.drop_drop]
      rw [hw]; exact this
    · rw [List.filterMap_append, List.countP_append, hf, r1, r2, List.take_add (i := List.countP Entry.isOut log)]; rfl
    · rw [List.countP_append, r1]; omega

/-- **C14** (`pop`). At any time that is not before the last call, `pop` does not panic. It drops some packets
    and returns the next: these are the oldest packets of the queue, in order of arrival. It returns a packet
    whenever the queue was not empty. -/
theorem C14_pop {law : Nat → Nat} {q : Queue π} {arrived log last now} (h : Run law q arrived log last) (hle : last ≤ now) :
    ∃ q' drops fwd, q.pop law now = .ok (q', drops, fwd) ∧
      q.elements.map (·.packet) = drops ++ fwd.toList ++ q'.elements.map (·.packet) ∧
      (q.elements ≠ [] → fwd.isSome = true) := by
  obtain ⟨hi, hl, _⟩ := h.inv
  have hi' : Inv q (waiting arrived log) log now := ⟨hi.elems, hi.total, fun a ha => Nat.le_trans (hi.times a ha) hle, hi.next, hi.above⟩
  obtain ⟨q2, drops2, fwd2, e2, did⟩ := pop_did (law := law) hi' hl
  refine ⟨q2, drops2, fwd2, e2, ?_, ?_⟩
  · rw [did.order, hi.elems, did.inv.elems]
    have : ∀ l : List (Arrival π), (l.map toElem).map (·.packet) = l.map (·.1) := by intro l; simp [toElem]
    rw [this, this, ← List.map_append, List.take_append_drop]
  · intro hne
    refine did.some_ ?_
    intro hh
    rw [hi.elems, hh] at hne
    exact hne rfl

/-- **C14** (conservation). The packets that arrived are, in order, those that left (returned or dropped,
    each exactly once) followed by those in the queue. -/
theorem C14_conserve {law : Nat → Nat} {q : Queue π} {arrived log last} (h : Run law q arrived log last) :
    arrived = log.filterMap Entry.arrival ++ q.elements.map (fun e => (e.packet, e.enqueueTs)) := by
  obtain ⟨hi, _, hf, _⟩ := h.inv
  rw [hf, hi.elems]
  have : ∀ l : List (Arrival π), (l.map toElem).map (fun e => (e.packet, e.enqueueTs)) = l := by
    intro l; rw [List.map_map]; exact List.map_id l
  rw [this, waiting, List.take_append_drop]

/-- **C14** (bytes). The byte count of the queue is the sum of the lengths of its packets. -/
theorem C14_bytes {law : Nat → Nat} {q : Queue π} {arrived log last} (h : Run law q arrived log last) :
    q.totalBytes = (q.elements.map (·.packet.len)).sum := by
  obtain ⟨hi, _⟩ := h.inv
  rw [hi.total, hi.elems, List.map_map]; rfl

/-- **C14** (drops). A packet is dropped only if it waited for at least the target delay with more than one
    MTU queued behind it, and the same held for every packet that left during at least the last interval,
    in which the queue was not found empty. -/
theorem C14_drop {law : Nat → Nat} {q : Queue π} {arrived log last} (h : Run law q arrived log last)
    {before after : List (Entry π)} {p : Packet π} {t n b : Nat} (e : log = before ++ .out p t n b true :: after) :
    (target ≤ n - t ∧ mtu < b) ∧
      ∃ older f since, before = older ++ f :: since ∧ f.time + interval ≤ n ∧ ∀ x ∈ f :: since, x.Bad :=
  h.inv.2.1 before p t n b after e

/-- **C14** (no congestion, no loss). If every packet left within the target delay, none was dropped. -/
theorem C14_no_drop {law : Nat → Nat} {q : Queue π} {arrived log last} (h : Run law q arrived log last)
    (hd : ∀ p t n b d, Entry.out p t n b d ∈ log → n - t < target) :
    ∀ p t n b d, Entry.out p t n b d ∈ log → d = false := by
  intro p t n b d hm
  cases d with
  | false => rfl
  | true =>
    obtain ⟨l1, l2, e⟩ := List.append_of_mem hm
    have := (C14_drop h e).1.1
    have := hd p t n b true hm
    omega

/-! ### The algorithm of RFC 8289 -/

/-- The state of the pseudo-code of RFC 8289, section 5.4: the queue with arrival times and the variables
    `first_above_time_` (0 if not above), `drop_next_`, `count_`, `lastcount_`, `dropping_`. -/
structure Rfc (π : Type) where
  q : List (Arrival π)
  firstAbove : Nat
  dropNext : Nat
  count : Nat
  lastCount : Nat
  dropping : Bool

def Rfc.init : Rfc π := ⟨[], 0, 0, 0, 0, false⟩

/-- RFC 8289, section 5.5, `enque`. -/
def Rfc.enque (s : Rfc π) (p : Packet π) (now : Nat) : Rfc π := { s with q := s.q ++ [(p, now)] }

/-- RFC 8289, section 5.6, `dodequeue`; `MAXPACKET` is the MTU. The result is the packet and `ok_to_drop`. -/
def Rfc.dodequeue (s : Rfc π) (now : Nat) : Rfc π × Option (Packet π) × Bool :=
  match s.q with
  | [] => ({ s with firstAbove := 0 }, none, false)
  | (p, t) :: w =>
    if now - t < target ∨ bytes w ≤ mtu then ({ s with q := w, firstAbove := 0 }, some p, false)
    else if s.firstAbove = 0 then ({ s with q := w, firstAbove := now + interval }, some p, false)
    else ({ s with q := w }, some p, decide (now ≥ s.firstAbove))

/-- RFC 8289, section 5.6, the `while` loop of `deque`: from the state and the current packet to the state,
    the packets dropped and the packet returned. -/
inductive Rfc.While (law : Nat → Nat) (now : Nat) : Rfc π → Option (Packet π) → Rfc π → List (Packet π) → Option (Packet π) → Prop where
  | stop {s p} : ¬ (now ≥ s.dropNext ∧ s.dropping = true) → Rfc.While law now s p s [] p
  | keep {s p s1 p1 s' drops r} : now ≥ s.dropNext → s.dropping = true →
      ({ s with count := s.count + 1 } : Rfc π).dodequeue now = (s1, p1, true) →
      Rfc.While law now { s1 with dropNext := s1.dropNext + law s1.count } p1 s' drops r →
      Rfc.While law now s (some p) s' (p :: drops) r
  | leave {s p s1 p1 s' drops r} : now ≥ s.dropNext → s.dropping = true →
      ({ s with count := s.count + 1 } : Rfc π).dodequeue now = (s1, p1, false) →
      Rfc.While law now { s1 with dropping := false } p1 s' drops r →
      Rfc.While law now s (some p) s' (p :: drops) r

/-- RFC 8289, section 5.6, the count on entering the dropping state. -/
def Rfc.newCount (s : Rfc π) (now : Nat) : Nat :=
  if s.count - s.lastCount > 1 ∧ now < s.dropNext + 16 * interval then s.count - s.lastCount else 1

/-- RFC 8289, section 5.6, `deque`. -/
inductive Rfc.Deque (law : Nat → Nat) (now : Nat) (s : Rfc π) : Rfc π → List (Packet π) → Option (Packet π) → Prop where
  | dropping {s1 p1 ok s' drops r} : s.dropping = true → s.dodequeue now = (s1, p1, ok) →
      Rfc.While law now { s1 with dropping := ok } p1 s' drops r → Rfc.Deque law now s s' drops r
  | enter {s1 p1 s2 p2 ok} : s.dropping = false → s.dodequeue now = (s1, some p1, true) → s1.dodequeue now = (s2, p2, ok) →
      Rfc.Deque law now s { s2 with dropping := true, count := s2.newCount now, dropNext := now + law (s2.newCount now), lastCount := s2.newCount now } [p1] p2
  | pass {s1 p1} : s.dropping = false → s.dodequeue now = (s1, p1, false) → Rfc.Deque law now s s1 [] p1

/-- A call: a packet arrives, or the host asks for one. -/
inductive Op (π : Type) where
  | push (p : Packet π) (now : Nat)
  | pop (now : Nat)

def Op.time : Op π → Nat
  | .push _ now => now
  | .pop now => now

/-- What the calls to `pop` do: the packets dropped and the packet returned. -/
abbrev Outs (π : Type) := List (List (Packet π) × Option (Packet π))

/-- The model, for a sequence of calls. -/
def Queue.run (law : Nat → Nat) : Queue π → List (Op π) → R (Outs π)
  | _, [] => .ok []
  | q, .push p now :: ops => (q.push p now).run law ops
  | q, .pop now :: ops => do
    let r ← q.pop law now
    let o ← r.1.run law ops
    return r.2 :: o

/-- The pseudo-code, for a sequence of calls. -/
inductive Rfc.Run (law : Nat → Nat) : Rfc π → List (Op π) → Outs π → Prop where
  | nil {s} : Rfc.Run law s [] []
  | push {s p now ops o} : Rfc.Run law (s.enque p now) ops o → Rfc.Run law s (.push p now :: ops) o
  | pop {s s' now ops drops r o} : Rfc.Deque law now s s' drops r → Rfc.Run law s' ops o →
      Rfc.Run law s (.pop now :: ops) ((drops, r) :: o)

/-- The queue and the pseudo-code are in the same state. -/
structure Same (q : Queue π) (s : Rfc π) (last : Nat) : Prop where
  elems : q.elements = s.q.map toElem
  total : q.totalBytes = bytes s.q
  times : ∀ a ∈ s.q, a.2 ≤ last
  above : q.intervalEnd = if s.firstAbove = 0 then none else some s.firstAbove
  mode : q.mode = if s.dropping = true then .drop else .store
  next : q.dropNext = some s.dropNext ∨ (q.dropNext = none ∧ s.dropping = false ∧ s.count = s.lastCount)
  count : q.currentDropCount = s.count
  last : q.previousDropCount = s.lastCount

theorem same_codelPop {q : Queue π} {s : Rfc π} {now : Nat} (h : Same q s now) :
    ∃ q1 s1 p ok, s.dodequeue now = (s1, p, ok) ∧ q.codelPop now = .ok (q1, p.map (fun p => ⟨p, ok⟩)) ∧
      Same q1 s1 now ∧ s1.dropping = s.dropping ∧ s1.dropNext = s.dropNext ∧ s1.count = s.count ∧
      s1.lastCount = s.lastCount ∧ q1.dropNext = q.dropNext ∧ s1.q = s.q.tail ∧ (p = none ↔ s.q = []) ∧
      (ok = true → s1.q ≠ []) := by
  obtain ⟨he, ht, hti, ha, hm, hn, hc, hl⟩ := h
  obtain ⟨sq, fa, dn, c, lc, dr⟩ := s
  dsimp only at *
  cases sq with
  | nil =>
    refine ⟨{ q with intervalEnd := none }, _, _, _, rfl, ?_, ?_, rfl, rfl, rfl, rfl, rfl, rfl, by simp, by simp⟩
    · unfold Queue.codelPop; rw [he]; rfl
    · exact ⟨he, ht, hti, rfl, hm, hn, hc, hl⟩
  | cons a w =>
    obtain ⟨p, t⟩ := a
    have htot : q.totalBytes - p.len = bytes w := by rw [ht, bytes_cons]; exact Nat.add_sub_cancel_left ..
    have h1 : decide (p.len ≤ q.totalBytes) = true := by
      rw [ht, bytes_cons]; exact decide_eq_true (Nat.le_add_right ..)
    have h2 : decide (now ≥ t) = true := decide_eq_true (hti (p, t) (List.mem_cons_self ..))
    have htw : ∀ a ∈ w, a.2 ≤ now := fun a ha => hti a (List.mem_cons_of_mem _ ha)
    unfold Queue.codelPop Rfc.dodequeue
    rw [he]
    simp only [List.map_cons, toElem, h1, h2, R.assert_true, R.bind_ok]
    rw [htot]
    unfold Queue.processStandingDelay
    by_cases hg : now - t < target ∨ bytes w ≤ mtu
    · rw [if_pos hg, if_pos hg]
      exact ⟨_, _, _, _, rfl, rfl, ⟨rfl, rfl, htw, rfl, hm, hn, hc, hl⟩, rfl, rfl, rfl, rfl, rfl, rfl, by simp, by simp⟩
    · rw [if_neg hg, if_neg hg]
      have hw : w ≠ [] := ne_nil_of_bytes (by omega)
      by_cases hfa : fa = 0
      · rw [if_pos hfa] at ha ⊢
        rw [ha]
        refine ⟨_, _, _, _, rfl, rfl, ⟨rfl, rfl, htw, ?_, hm, hn, hc, hl⟩, rfl, rfl, rfl, rfl, rfl, rfl, by simp, by simp⟩
        have : ¬ (now + interval = 0) := fun hh => absurd (Nat.eq_zero_of_add_eq_zero hh).2 (by decide)
        exact (if_neg this).symm
      · rw [if_neg hfa] at ha ⊢
        rw [ha]
        refine ⟨_, _, _, _, rfl, rfl, ⟨rfl, rfl, htw, ?_, hm, hn, hc, hl⟩, rfl, rfl, rfl, rfl, rfl, rfl, by simp, fun _ => hw⟩
        exact (if_neg hfa).symm

theorem Same.dropNext_some {q : Queue π} {s : Rfc π} {now} (h : Same q s now) (hd : s.dropping = true) :
    q.dropNext = some s.dropNext := by
  rcases h.next with h | ⟨_, h, _⟩
  · exact h
  · rw [hd] at h; cases h

theorem Same.mode_drop {q : Queue π} {s : Rfc π} {now} (h : Same q s now) : q.mode = .drop ↔ s.dropping = true := by
  rw [h.mode]
  cases s.dropping <;> simp

theorem same_loop {law : Nat → Nat} {now : Nat} : ∀ (fuel : Nat) {q : Queue π} {s : Rfc π} {p : Packet π} {ok : Bool},
    s.q.length + 1 < fuel → Same q s now →
    ∃ q' s' drops r, q.dropLoop law now fuel (some ⟨p, ok⟩) = .ok (q', drops, r) ∧
      Rfc.While law now s (some p) s' drops r ∧ Same q' s' now := by
  intro fuel
  induction fuel with
  | zero => intro q s p ok hf; omega
  | succ fuel ih =>
    intro q s p ok hf h
    by_cases hc : q.mode = .drop ∧ q.shouldDrop now = true
    · have hd := h.mode_drop.1 hc.1
      have hn := h.dropNext_some hd
      have hge : now ≥ s.dropNext := by
        have := hc.2
        unfold Queue.shouldDrop at this
        rw [hn] at this
        simpa using this
      have h0 : Same { q with currentDropCount := q.currentDropCount + 1 } { s with count := s.count + 1 } now :=
        ⟨h.elems, h.total, h.times, h.above, h.mode, .inl hn, by rw [h.count], h.last⟩
      obtain ⟨q1, s1, p1, ok1, e1, e2, h1, f1, f2, f3, f4, f5, f6, f7, f8⟩ := same_codelPop h0
      rw [Queue.dropLoop]
      simp only [if_pos hc, e2, R.bind_ok]
      have hlen : s1.q.length = s.q.length - 1 := by rw [f6]; simp
      cases ok1 with
      | true =>
        cases p1 with
        | none =>
          have : s.q = [] := f7.1 rfl
          exact absurd (by rw [f6]; exact congrArg List.tail this) (f8 rfl)
        | some p1 =>
          have hne : s.q ≠ [] := fun hh => by cases f7.2 hh
          have hpos : 0 < s.q.length := List.length_pos_iff.2 hne
          have hs1 : s1.dropping = true := f1.trans hd
          have hn1 := h1.dropNext_some hs1
          obtain ⟨q', s', drops, r, e3, w3, h3⟩ := ih (q := { q1 with dropNext := some (s1.dropNext + law q1.currentDropCount) })
            (s := { s1 with dropNext := s1.dropNext + law s1.count }) (p := p1) (ok := true) (by simp only; omega)
            ⟨h1.elems, h1.total, h1.times, h1.above, h1.mode, .inl (by rw [h1.count]), h1.count, h1.last⟩
          refine ⟨q', s', p :: drops, r, ?_, .keep hge hd e1 w3, h3⟩
          simp [Queue.afterDrop, hn1, R.unwrap, R.bind_ok, R.pure_eq, e3]
      | false =>
        have hs : Same { q1 with mode := .store } { s1 with dropping := false } now := by
          refine ⟨h1.elems, h1.total, h1.times, h1.above, rfl, ?_, h1.count, h1.last⟩
          exact .inl (h1.dropNext_some (f1.trans hd))
        cases p1 with
        | none =>
          refine ⟨_, _, [p], none, ?_, .leave hge hd e1 (.stop (by simp)), hs⟩
          cases fuel with
          | zero => omega
          | succ fuel => rfl
        | some p1 =>
          have hne : s.q ≠ [] := fun hh => by cases f7.2 hh
          have hpos : 0 < s.q.length := List.length_pos_iff.2 hne
          obtain ⟨q', s', drops, r, e3, w3, h3⟩ := ih (p := p1) (ok := false) (by simp only; omega) hs
          refine ⟨q', s', p :: drops, r, ?_, .leave hge hd e1 w3, h3⟩
          simp [Queue.afterDrop, R.bind_ok, R.pure_eq, e3]
    · refine ⟨q, s, [], some p, ?_, .stop ?_, h⟩
      · rw [Queue.dropLoop]
        simp only [if_neg hc]
      · rintro ⟨hge, hd⟩
        refine hc ⟨h.mode_drop.2 hd, ?_⟩
        unfold Queue.shouldDrop
        rw [h.dropNext_some hd]
        simpa using hge

theorem same_startCount {q : Queue π} {s : Rfc π} {now} (h : Same q s now) (m : Mode) :
    ({ q with mode := m } : Queue π).startCount now = s.newCount now := by
  unfold Queue.startCount Rfc.newCount Queue.wasDroppingRecently
  simp only [h.count, h.last]
  have hi : interval = 100000000 := rfl
  rcases h.next with hn | ⟨hn, _, hc⟩
  · rw [hn]
    by_cases h1 : s.count - s.lastCount > 1 ∧ now < s.dropNext + 16 * interval
    · have : (decide (now - s.dropNext < interval * 16) && decide (s.count - s.lastCount > 1)) = true := by
        rw [Bool.and_eq_true, decide_eq_true_eq, decide_eq_true_eq]
        exact ⟨by omega, h1.1⟩
      rw [if_pos h1, if_pos this]
    · have : ¬ (decide (now - s.dropNext < interval * 16) && decide (s.count - s.lastCount > 1)) = true := by
        rw [Bool.and_eq_true, decide_eq_true_eq, decide_eq_true_eq]
        omega
      rw [if_neg h1, if_neg this]
  · rw [hn, hc]
    simp

theorem same_pop {law : Nat → Nat} {now : Nat} {q : Queue π} {s : Rfc π} (h : Same q s now) :
    ∃ q' s' drops r, q.pop law now = .ok (q', drops, r) ∧ Rfc.Deque law now s s' drops r ∧ Same q' s' now := by
  obtain ⟨q1, s1, p1, ok1, e1, e2, h1, f1, f2, f3, f4, f5, f6, f7, f8⟩ := same_codelPop h
  unfold Queue.pop
  rw [e2, R.bind_ok]
  have toStore : ∀ (hok : ok1 = false), ∃ s', Rfc.Deque law now s s' [] p1 ∧ Same { q1 with mode := .store } s' now := by
    intro hok
    subst hok
    cases hd : s.dropping with
    | false =>
      refine ⟨s1, .pass hd e1, ⟨h1.elems, h1.total, h1.times, h1.above, ?_, h1.next, h1.count, h1.last⟩⟩
      rw [f1, hd]; rfl
    | true =>
      refine ⟨{ s1 with dropping := false }, .dropping hd e1 (.stop (by simp)), ⟨h1.elems, h1.total, h1.times, h1.above, rfl, ?_, h1.count, h1.last⟩⟩
      exact .inl (h1.dropNext_some (f1.trans hd))
  cases p1 with
  | none =>
    have hok : ok1 = false := by
      cases ok1 with
      | false => rfl
      | true =>
        have : s.q = [] := f7.1 rfl
        exact absurd (by rw [f6]; exact congrArg List.tail this) (f8 rfl)
    obtain ⟨s', hs1, hs2⟩ := toStore hok
    exact ⟨_, s', [], none, rfl, hs1, hs2⟩
  | some p1 =>
    dsimp only [Option.map_some]
    cases ok1 with
    | false =>
      obtain ⟨s', hs1, hs2⟩ := toStore rfl
      exact ⟨_, s', [], some p1, rfl, hs1, hs2⟩
    | true =>
      rw [if_pos rfl]
      cases hd : s.dropping with
      | false =>
        have hm : q1.mode = .store := by rw [h1.mode, f1, hd]; rfl
        rw [if_pos hm]
        unfold Queue.dropFromStoreMode
        rw [decide_eq_true hm, R.assert_true, R.bind_ok]
        obtain ⟨q2, s2, p2, ok2, g1, g2, h2, k1, k2, k3, k4, k5, k6, k7, k8⟩ := same_codelPop h1
        rw [g2, R.bind_ok]
        refine ⟨{ q2 with mode := .drop, currentDropCount := s2.newCount now, dropNext := some (now + law (s2.newCount now)), previousDropCount := s2.newCount now },
          _, [p1], p2, ?_, .enter hd e1 g1, h2.elems, h2.total, h2.times, h2.above, rfl, .inl rfl, rfl, rfl⟩
        dsimp only
        rw [same_startCount h2 .drop]
        cases p2 <;> rfl
      | true =>
        have hm : q1.mode = .drop := by rw [h1.mode, f1, hd]; rfl
        rw [if_neg (by rw [hm]; simp)]
        unfold Queue.dropFromDropMode
        rw [decide_eq_true hm, R.assert_true, R.bind_ok]
        have hs : ({ s1 with dropping := true } : Rfc π) = s1 := by
          have := f1.trans hd
          cases s1; simp_all
        obtain ⟨q', s', drops, r, e3, w3, h3⟩ := same_loop (law := law) (q1.elements.length + 2) (q := q1) (s := s1) (p := p1) (ok := true)
          (by rw [h1.elems]; simp) h1
        exact ⟨q', s', drops, r, e3, .dropping hd e1 (by rw [hs]; exact w3), h3⟩

theorem Rfc.While.det {law : Nat → Nat} {now : Nat} {s : Rfc π} {p s1 d1 r1} (h1 : Rfc.While law now s p s1 d1 r1) :
    ∀ {s2 d2 r2}, Rfc.While law now s p s2 d2 r2 → s1 = s2 ∧ d1 = d2 ∧ r1 = r2 := by
  induction h1 with
  | stop hn =>
    intro s2 d2 r2 h2
    cases h2 with
    | stop _ => exact ⟨rfl, rfl, rfl⟩
    | keep a b => exact absurd ⟨a, b⟩ hn
    | leave a b => exact absurd ⟨a, b⟩ hn
  | keep a b e _ ih =>
    intro s2 d2 r2 h2
    cases h2 with
    | stop hn => exact absurd ⟨a, b⟩ hn
    | keep _ _ e' w => rw [e] at e'; cases e'; obtain ⟨i1, i2, i3⟩ := ih w; exact ⟨i1, by rw [i2], i3⟩
    | leave _ _ e' w => rw [e] at e'; cases e'
  | leave a b e _ ih =>
    intro s2 d2 r2 h2
    cases h2 with
    | stop hn => exact absurd ⟨a, b⟩ hn
    | keep _ _ e' w => rw [e] at e'; cases e'
    | leave _ _ e' w => rw [e] at e'; cases e'; obtain ⟨i1, i2, i3⟩ := ih w; exact ⟨i1, by rw [i2], i3⟩

theorem Rfc.Deque.det {law : Nat → Nat} {now : Nat} {s s1 : Rfc π} {d1 r1} (h1 : Rfc.Deque law now s s1 d1 r1)
    {s2 d2 r2} (h2 : Rfc.Deque law now s s2 d2 r2) : s1 = s2 ∧ d1 = d2 ∧ r1 = r2 := by
  cases h1 with
  | dropping hd e w =>
    cases h2 with
    | dropping _ e' w' => rw [e] at e'; cases e'; exact w.det w'
    | enter hd' => rw [hd] at hd'; cases hd'
    | pass hd' => rw [hd] at hd'; cases hd'
  | enter hd e g =>
    cases h2 with
    | dropping hd' => rw [hd] at hd'; cases hd'
    | enter _ e' g' => rw [e] at e'; cases e'; rw [g] at g'; cases g'; exact ⟨rfl, rfl, rfl⟩
    | pass _ e' => rw [e] at e'; cases e'
  | pass hd e =>
    cases h2 with
    | dropping hd' => rw [hd] at hd'; cases hd'
    | enter _ e' => rw [e] at e'; cases e'
    | pass _ e' => rw [e] at e'; cases e'; exact ⟨rfl, rfl, rfl⟩

theorem Rfc.Run.det {law : Nat → Nat} {s : Rfc π} {ops o1} (h1 : Rfc.Run law s ops o1) :
    ∀ {o2}, Rfc.Run law s ops o2 → o1 = o2 := by
  induction h1 with
  | nil => intro o2 h2; cases h2; rfl
  | push _ ih => intro o2 h2; cases h2 with | push h => exact ih h
  | pop d _ ih =>
    intro o2 h2
    cases h2 with
    | pop d' h =>
      obtain ⟨rfl, rfl, rfl⟩ := d.det d'
      rw [ih h]

theorem same_run {law : Nat → Nat} : ∀ (ops : List (Op π)) {q : Queue π} {s : Rfc π} {last : Nat}, Same q s last →
    (ops.map Op.time).Pairwise (· ≤ ·) → (∀ op ∈ ops, last ≤ op.time) → ∃ o, q.run law ops = .ok o ∧ Rfc.Run law s ops o := by
  intro ops
  induction ops with
  | nil => intro q s last _ _ _; exact ⟨[], rfl, .nil⟩
  | cons op ops ih =>
    intro q s last h hp hle
    rw [List.map_cons, List.pairwise_cons] at hp
    have hle' : ∀ x ∈ ops, op.time ≤ x.time := fun x hx => hp.1 _ (List.mem_map_of_mem hx)
    have h0 := hle op (List.mem_cons_self ..)
    have hup : Same q s op.time := ⟨h.elems, h.total, fun a ha => Nat.le_trans (h.times a ha) h0, h.above, h.mode, h.next, h.count, h.last⟩
    cases op with
    | push p now =>
      obtain ⟨o, e, r⟩ := ih (q := q.push p now) (s := s.enque p now) (last := now) (by
        refine ⟨?_, ?_, ?_, h.above, h.mode, h.next, h.count, h.last⟩
        · simp [Queue.push, Rfc.enque, h.elems, toElem]
        · simp [Queue.push, Rfc.enque, h.total, bytes]
        · intro a ha
          rcases List.mem_append.1 ha with ha | ha
          · exact hup.times a ha
          · rw [List.mem_singleton.1 ha]; exact Nat.le_refl _) hp.2 hle'
      exact ⟨o, e, .push r⟩
    | pop now =>
      obtain ⟨q', s', drops, r, e1, w1, h1⟩ := same_pop (law := law) hup
      obtain ⟨o, e, w⟩ := ih h1 hp.2 hle'
      refine ⟨(drops, r) :: o, ?_, .pop w1 w⟩
      simp [Queue.run, show q.pop law now = _ from e1, R.bind_ok, e, R.pure_eq]

/-- **C14** (RFC 8289). For every sequence of calls at times that do not decrease, the queue does not panic, and
    drops and returns exactly the packets that the pseudo-code of RFC 8289 drops and returns, with the same
    control law. -/
theorem C14_rfc8289 {law : Nat → Nat} (ops : List (Op π)) (h : (ops.map Op.time).Pairwise (· ≤ ·)) :
    ∃ o, (Queue.new : Queue π).run law ops = .ok o ∧ ∀ o', Rfc.Run law Rfc.init ops o' ↔ o' = o := by
  have h0 : Same (Queue.new : Queue π) Rfc.init 0 :=
    ⟨rfl, rfl, (fun a ha => by cases ha), rfl, rfl, .inr ⟨rfl, rfl, rfl⟩, rfl, rfl⟩
  obtain ⟨o, e, r⟩ := same_run (law := law) ops h0 h (fun _ _ => Nat.zero_le _)
  refine ⟨o, e, fun o' => ⟨fun r' => r'.det r, ?_⟩⟩
  rintro rfl; exact r

/-! ### Examples -/

def pk (n : Nat) : Packet Nat := ⟨n, 1000⟩

/-- A burst that is read too slowly: the queue enters the dropping state at 120 ms and drops again at 230 ms. -/
def exOps : List (Op Nat) :=
  (List.range 12).map (fun n => Op.push (pk n) 0) ++
    [.pop 15000000, .pop 60000000, .pop 120000000, .pop 200000000, .pop 230000000, .pop 300000000]

/-- Drops happen: at 120 ms the packet 2, at 230 ms the packet 5. -/
example : (match (Queue.new : Queue Nat).run (fun _ => 100000000) exOps with
    | .ok o => o.map (fun x => (x.1.map (·.data), x.2.map (·.data)))
    | .panic => []) =
    [([], some 0), ([], some 1), ([2], some 3), ([], some 4), ([5], some 6), ([], some 7)] := by decide +kernel

example : (exOps.map Op.time).Pairwise (· ≤ ·) := by decide +kernel

/-- The history of a sequence of calls. -/
def history (law : Nat → Nat) : List (Op π) → Queue π × List (Arrival π) × List (Entry π) × Nat →
    Option (Queue π × List (Arrival π) × List (Entry π) × Nat)
  | [], h => some h
  | .push p now :: ops, (q, arrived, log, last) =>
    if last ≤ now then history law ops (q.push p now, arrived ++ [(p, now)], log, now) else none
  | .pop now :: ops, (q, arrived, log, last) =>
    if last ≤ now then
      match q.pop law now with
      | .ok (q', drops, fwd) => history law ops (q', arrived, log ++ record now (waiting arrived log) drops.length fwd.isSome, now)
      | .panic => none
    else none

theorem history_run {law : Nat → Nat} : ∀ (ops : List (Op π)) {q arrived log last q' arrived' log' last'},
    Run law q arrived log last → history law ops (q, arrived, log, last) = some (q', arrived', log', last') →
    Run law q' arrived' log' last' := by
  intro ops
  induction ops with
  | nil => intro q arrived log last q' arrived' log' last' h e; cases e; exact h
  | cons op ops ih =>
    intro q arrived log last q' arrived' log' last' h e
    cases op with
    | push p now =>
      rw [history] at e
      by_cases hle : last ≤ now
      · rw [if_pos hle] at e; exact ih (h.push hle) e
      · rw [if_neg hle] at e; cases e
    | pop now =>
      rw [history] at e
      by_cases hle : last ≤ now
      · rw [if_pos hle] at e
        cases hp : q.pop law now with
        | ok r =>
          obtain ⟨q1, drops, fwd⟩ := r
          rw [hp] at e; exact ih (h.pop hle hp) e
        | panic => rw [hp] at e; cases e
      · rw [if_neg hle] at e; cases e

/-- The example is a history: three packets left before the first drop, the first of them more than an interval
    earlier, and after the last call four packets are left. -/
example : (history (fun _ => 100000000) exOps (Queue.new, [], [], 0)).map (fun h =>
    h.1.elements.map (·.packet.data) :: h.2.2.1.map (fun | .out p _ n b d => [p.data, n, b, d.toNat] | .empty n => [n])) =
    some ([8, 9, 10, 11] :: [[0, 15000000, 11000, 0], [1, 60000000, 10000, 0], [2, 120000000, 9000, 1],
      [3, 120000000, 8000, 0], [4, 200000000, 7000, 0], [5, 230000000, 6000, 1],
      [6, 230000000, 5000, 0], [7, 300000000, 4000, 0]]) := by decide +kernel

end Shadow.Codel
