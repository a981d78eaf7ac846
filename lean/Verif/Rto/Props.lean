import Verif.Rto.Model

/-!
# C75: the retransmission timer fires when it should
-/

namespace Shadow.Rto
open Shadow.Base

/-! ## Specification of the timer -/

/-- What a timer should do: when it was started and for how many milliseconds, and when it has gone off. -/
structure Spec where
  armed : Option (Nat × Nat)
  log : List Nat

/-- The timer after an action, given the socket before the action and its timeout afterwards (RFC 6298, section 5):
started by sending if it does not run, by sending again, by a new acknowledgement if bytes are left and when it goes
off; stopped when no bytes are left, and by an event that finds nothing to send again. It goes off when the time has come. -/
def Spec.next (g : Spec) (x : T) (rto : Nat) : Act → Spec
  | .send => if g.armed = none then { g with armed := some (x.now, rto) } else g
  | .resend _ => { g with armed := some (x.now, rto) }
  | .ack new zero _ => if zero then { g with armed := none } else if new then { g with armed := some (x.now, rto) } else g
  | .fire =>
    match x.events with
    | [] => g
    | e :: _ =>
      if x.closed ∨ x.queued = false then { g with armed := none }
      else match g.armed with
        | none => g
        | some (a, m) => if a + m * ms = e then { armed := some (e, rto), log := g.log ++ [e] } else g
  | _ => g

/-- Executions with what the timer should do. -/
inductive GRun : T → Spec → Prop
  | fresh (now) (h : 0 < now) : GRun (fresh now) ⟨none, []⟩
  | step {x y a g} : GRun x g → allowed x a → step x a = .ok y → GRun y (g.next x y.rto a)

/-! ## The invariant -/

/-- `desired` as a value of the specification. -/
def want : Option (Nat × Nat) → Nat
  | none => 0
  | some (a, m) => a + m * ms

structure Inv (x : T) (g : Spec) : Prop where
  pos : 0 < x.now
  same : x.sched = x.events
  srt : x.events.Pairwise (· < ·)
  ge : ∀ e ∈ x.events, x.now ≤ e
  des : x.desired = want g.armed
  apos : ∀ a m, g.armed = some (a, m) → 0 < a
  head : x.desired ≠ 0 → ∃ t, x.events.head? = some t ∧ t ≤ x.desired
  lo : rtoMin ≤ x.rto
  hi : x.rto ≤ rtoMax
  lg : x.log = g.log
  es : x.est.srtt ≤ 306783378
  ev : x.est.var ≤ 306783378

theorem clamp_range (t : Nat) : rtoMin ≤ clamp t ∧ clamp t ≤ rtoMax := by
  unfold clamp rtoMin rtoMax; omega

/-- What starting the timer at `d` leaves. -/
structure Started (x y : T) (d : Nat) : Prop where
  now : y.now = x.now
  des : y.desired = d
  same : y.sched = y.events
  srt : y.events.Pairwise (· < ·)
  ge : ∀ e ∈ y.events, x.now ≤ e
  head : ∃ t, y.events.head? = some t ∧ t ≤ d
  rto : y.rto = x.rto
  est : y.est = x.est
  log : y.log = x.log
  backoff : y.backoff = x.backoff
  queued : y.queued = x.queued
  closed : y.closed = x.closed
  /-- the queue grows by at most one event, which is the first -/
  more : y.events = x.events ∨ (y.events = d :: x.events)

theorem scheduleIfNeeded_started {x : T} (h1 : x.sched = x.events) (h2 : x.events.Pairwise (· < ·))
    (h3 : ∀ e ∈ x.events, x.now ≤ e) (h4 : x.now ≤ x.desired) : Started x (scheduleIfNeeded x) x.desired := by
  have e0 : x.now + (x.desired - x.now) = x.desired := by omega
  unfold scheduleIfNeeded
  cases hx : x.events with
  | nil =>
    rw [h1, hx]
    simp only [List.head?_nil]
    unfold schedule
    rw [h1, hx, e0]
    constructor <;> first | rfl | (simp [insert]; try omega)
    all_goals first | rfl | simp_all
  | cons t ts =>
    rw [h1, hx]
    simp only [List.head?_cons]
    by_cases ht : t ≤ x.desired
    · rw [if_pos ht]
      exact ⟨rfl, rfl, h1, h2, h3, ⟨t, by rw [hx]; rfl, ht⟩, rfl, rfl, rfl, rfl, rfl, rfl, Or.inl rfl⟩
    · rw [if_neg ht]
      unfold schedule
      rw [h1, hx, e0]
      have ei : insert x.desired (t :: ts) = x.desired :: t :: ts := by
        unfold insert; rw [if_neg ht]
      rw [ei]
      refine ⟨rfl, rfl, rfl, ?_, ?_, ⟨x.desired, rfl, Nat.le_refl _⟩, rfl, rfl, rfl, rfl, rfl, rfl, Or.inr ?_⟩
      · rw [hx] at h2
        rw [List.pairwise_cons]
        refine ⟨fun e he => ?_, h2⟩
        rcases List.mem_cons.mp he with rfl | he
        · omega
        · have := (List.pairwise_cons.mp h2).1 e he; omega
      · intro e he
        rcases List.mem_cons.mp he with rfl | he
        · exact h4
        · exact h3 e (by rw [hx]; exact he)
      · show _ = _; rw [hx]

theorem setTimer_started {x : T} (h1 : x.sched = x.events) (h2 : x.events.Pairwise (· < ·))
    (h3 : ∀ e ∈ x.events, x.now ≤ e) : Started x (setTimer x) (x.now + x.rto * ms) := by
  have := scheduleIfNeeded_started (x := { x with desired := x.now + x.rto * ms }) h1 h2 h3 (by simp)
  exact ⟨this.now, this.des, this.same, this.srt, this.ge, this.head, this.rto, this.est, this.log, this.backoff, this.queued, this.closed, this.more⟩

theorem Started.inv {x y : T} {g : Spec} {d : Nat} (h : Started x y d) (hp : 0 < x.now) (a m : Nat) (ha : 0 < a)
    (hd : d = a + m * ms) (hl : rtoMin ≤ x.rto) (hh : x.rto ≤ rtoMax) (hlog : x.log = g.log)
    (es : x.est.srtt ≤ 306783378) (ev : x.est.var ≤ 306783378) : Inv y { g with armed := some (a, m) } :=
  { pos := by rw [h.now]; exact hp
    same := h.same
    srt := h.srt
    ge := by rw [h.now]; exact h.ge
    des := by rw [h.des, hd]; rfl
    apos := fun a' m' e => by simp only [Option.some.injEq, Prod.mk.injEq] at e; omega
    head := fun _ => by rw [h.des]; exact h.head
    lo := by rw [h.rto]; exact hl
    hi := by rw [h.rto]; exact hh
    lg := by rw [h.log]; exact hlog
    es := by rw [h.est]; exact es
    ev := by rw [h.est]; exact ev }

theorem inv_fresh (now : Nat) (h : 0 < now) : Inv (fresh now) ⟨none, []⟩ := by
  constructor <;> simp [fresh, want, h, (clamp_range rtoInit).1, (clamp_range rtoInit).2]

/-- The estimates stay below the largest round trip, and nothing overflows. -/
theorem estimate_ok {e : Est} {r : Nat} (hs : e.srtt ≤ 306783378) (hv : e.var ≤ 306783378) (hr : r ≤ 306783378) :
    ∃ e' t, estimate e r = .ok (e', t) ∧ e'.srtt ≤ 306783378 ∧ e'.var ≤ 306783378 ∧ rtoMin ≤ t ∧ t ≤ rtoMax ∧
      t = clamp (e'.srtt + 4 * e'.var) ∧
      e' = if e.srtt = 0 then ⟨r, r / 2⟩ else ⟨7 * e.srtt / 8 + r / 8, 3 * e.var / 4 + dist e.srtt r / 4⟩ := by
  have hc := fun t => clamp_range t
  unfold estimate
  by_cases h0 : e.srtt = 0
  · simp only [h0, if_true, R.bind_ok]
    have : decide (r + 4 * (r / 2) ≤ intMax) = true := decide_eq_true (by unfold intMax; omega)
    rw [this, R.assert_true, R.bind_ok]
    exact ⟨_, _, rfl, hr, by simp only; omega, (hc _).1, (hc _).2, rfl, rfl⟩
  · simp only [h0, if_false]
    have h1 : decide (3 * e.var ≤ intMax) = true := decide_eq_true (by unfold intMax; omega)
    have h2 : decide (7 * e.srtt ≤ intMax) = true := decide_eq_true (by unfold intMax; omega)
    rw [h1, h2, R.assert_true, R.bind_ok, R.bind_ok, R.bind_ok]
    have hd : dist e.srtt r ≤ 306783378 := by unfold dist; omega
    have : decide (7 * e.srtt / 8 + r / 8 + 4 * (3 * e.var / 4 + dist e.srtt r / 4) ≤ intMax) = true :=
      decide_eq_true (by unfold intMax; omega)
    rw [this, R.assert_true, R.bind_ok]
    exact ⟨_, _, rfl, by simp only; omega, by simp only; omega, (hc _).1, (hc _).2, rfl, rfl⟩

theorem rttOf_le {now stamp : Nat} (h1 : stamp ≤ now) (h2 : now < 18446744073709551616) (h3 : now - stamp ≤ 306783378 * ms) :
    rttOf now stamp ≤ 306783378 ∧ rttOf now stamp = max 1 ((now - stamp) / ms) := by
  have e : (now + 18446744073709551616 - stamp) % 18446744073709551616 = now - stamp := by omega
  unfold rttOf
  simp only [e, ms, intMax] at *
  have : (now - stamp) / 1000000 ≤ 306783378 := by omega
  have e2 : (now - stamp) / 1000000 % 4294967296 = (now - stamp) / 1000000 := Nat.mod_eq_of_lt (by omega)
  simp only [e2]
  split <;> omega

theorem inv_step {x y : T} {g : Spec} {a : Act} (h : Inv x g) (ha : allowed x a) (hs : step x a = .ok y) :
    Inv y (g.next x y.rto a) := by
  have hle : x.desired ≠ 0 → x.now ≤ x.desired := fun hd => by
    obtain ⟨t, h1, h2⟩ := h.head hd
    have := h.ge t (List.mem_of_mem_head? h1)
    omega
  cases a with
  | pass t =>
    simp only [step, R.ok.injEq] at hs
    subst hs
    simp only [allowed] at ha
    exact { h with pos := Nat.lt_of_lt_of_le h.pos ha.1, ge := ha.2 }
  | send =>
    simp only [step, R.ok.injEq] at hs
    simp only [Spec.next]
    by_cases hd : x.desired = 0
    · rw [if_pos hd] at hs
      have hn : g.armed = none := by
        cases hg : g.armed with
        | none => rfl
        | some p =>
          have := h.apos p.1 p.2 hg
          have e := h.des
          rw [hg] at e
          simp only [want] at e
          omega
      rw [if_pos hn]
      have st := setTimer_started (x := { x with queued := true }) h.same h.srt h.ge
      rw [hs] at st
      have hr : y.rto = x.rto := st.rto
      rw [hr]
      exact st.inv h.pos _ _ h.pos rfl h.lo h.hi h.lg h.es h.ev
    · rw [if_neg hd] at hs
      subst hs
      have hn : g.armed ≠ none := by
        intro hg
        have e := h.des
        rw [hg] at e
        exact hd e
      rw [if_neg hn]
      exact { h with }
  | resend q =>
    simp only [step, R.ok.injEq] at hs
    simp only [Spec.next]
    have st := setTimer_started (x := { x with queued := q }) h.same h.srt h.ge
    rw [hs] at st
    have hr : y.rto = x.rto := st.rto
    rw [hr]
    exact st.inv h.pos _ _ h.pos rfl h.lo h.hi h.lg h.es h.ev
  | ack new zero q =>
    simp only [step, R.ok.injEq] at hs
    simp only [Spec.next]
    have hc := clamp_range rtoInit
    generalize hx' : (if new = true then
        { (if x.backoff > 2 then { x with queued := q, est := ⟨0, 0⟩, rto := clamp rtoInit } else { x with queued := q }) with
          backoff := 0 } else { x with queued := q } : T) = x' at hs
    have hi : Inv x' g ∧ x'.now = x.now := by
      rw [← hx']
      split
      · split
        · exact ⟨{ h with lo := hc.1, hi := hc.2, es := by simp, ev := by simp }, rfl⟩
        · exact ⟨{ h with }, rfl⟩
      · exact ⟨{ h with }, rfl⟩
    obtain ⟨hi, hnow⟩ := hi
    cases zero with
    | true =>
      simp only [if_true] at hs ⊢
      rw [← hs]
      exact { hi with des := rfl, apos := fun _ _ e => (nomatch e), head := fun e => absurd rfl e }
    | false =>
      simp only [Bool.false_eq_true, if_false] at hs ⊢
      cases new with
      | true =>
        simp only [if_true] at hs ⊢
        have st := setTimer_started (x := x') hi.same hi.srt hi.ge
        rw [hs] at st
        have hr : y.rto = x'.rto := st.rto
        rw [hr]
        exact st.inv hi.pos _ _ h.pos (by rw [hnow]) hi.lo hi.hi hi.lg hi.es hi.ev
      | false =>
        simp only [Bool.false_eq_true, if_false] at hs ⊢
        rw [← hs]
        exact hi
  | echo stamp =>
    simp only [step] at hs
    simp only [Spec.next]
    simp only [allowed] at ha
    split at hs
    · obtain ⟨e', t, he, b1, b2, b3, b4, _, _⟩ := estimate_ok h.es h.ev (rttOf_le ha.1 ha.2.1 ha.2.2).1
      rw [he, R.bind_ok, R.ok.injEq] at hs
      rw [← hs]
      exact { h with lo := b3, hi := b4, es := b1, ev := b2 }
    · rw [R.ok.injEq] at hs
      rw [← hs]
      exact h
  | clear =>
    simp only [step, R.ok.injEq] at hs
    rw [← hs]
    exact { h with }
  | close =>
    simp only [step, R.ok.injEq] at hs
    rw [← hs]
    exact { h with }
  | fire =>
    simp only [allowed] at ha
    cases hev : x.events with
    | nil => exact absurd hev ha
    | cons e es =>
      simp only [step, hev, R.ok.injEq] at hs
      simp only [Spec.next, hev]
      have hsched : x.sched = e :: es := by rw [h.same, hev]
      have hsrt := h.srt
      rw [hev, List.pairwise_cons] at hsrt
      have hge := h.ge
      rw [hev] at hge
      have hne : x.now ≤ e := hge e (List.mem_cons_self ..)
      have hdes : x.desired ≠ 0 → e ≤ x.desired := fun hd => by
        obtain ⟨t, h1, h2⟩ := h.head hd
        rw [hev, List.head?_cons, Option.some.injEq] at h1
        omega
      have hge' : ∀ t ∈ es, e ≤ t := fun t ht => Nat.le_of_lt (hsrt.1 t ht)
      have hpos : 0 < e := Nat.lt_of_lt_of_le h.pos hne
      unfold expired at hs
      simp only [hsched, List.tail_cons] at hs
      by_cases hcl : x.closed = true
      · rw [if_pos (Or.inl hcl)]
        rw [if_pos hcl] at hs
        rw [← hs]
        exact { pos := hpos, same := rfl, srt := hsrt.2, ge := hge', des := rfl, apos := fun _ _ q => (nomatch q),
                head := fun q => absurd rfl q, lo := h.lo, hi := h.hi, lg := h.lg, es := h.es, ev := h.ev }
      · rw [if_neg hcl] at hs
        by_cases hq : x.queued = false
        · rw [if_pos (Or.inr hq)]
          rw [if_pos (by rw [hq]; rfl)] at hs
          rw [← hs]
          exact { pos := hpos, same := rfl, srt := hsrt.2, ge := hge', des := rfl, apos := fun _ _ q => (nomatch q),
                  head := fun q => absurd rfl q, lo := h.lo, hi := h.hi, lg := h.lg, es := h.es, ev := h.ev }
        · rw [if_neg (by simp [hcl, hq])]
          rw [if_neg (by simpa using hq)] at hs
          cases hg : g.armed with
          | none =>
            have hd : x.desired = 0 := by rw [h.des, hg]; rfl
            rw [if_pos hd] at hs
            rw [← hs]
            exact { pos := hpos, same := rfl, srt := hsrt.2, ge := hge', des := h.des, apos := h.apos,
                    head := fun q => absurd hd q, lo := h.lo, hi := h.hi, lg := h.lg, es := h.es, ev := h.ev }
          | some p =>
            obtain ⟨a, m⟩ := p
            have hap := h.apos a m hg
            have hd : x.desired = a + m * ms := by rw [h.des, hg]; rfl
            have hd0 : x.desired ≠ 0 := by omega
            rw [if_neg hd0] at hs
            have hle' := hdes hd0
            by_cases hgt : x.desired > e
            · rw [if_pos hgt] at hs
              simp only
              rw [if_neg (by omega)]
              have st := scheduleIfNeeded_started
                (x := { x with now := e, events := es, sched := es }) rfl hsrt.2 hge' hle'
              rw [hs] at st
              have := st.inv (g := g) hpos a m hap hd h.lo h.hi h.lg h.es h.ev
              rw [← hg] at this
              exact this
            · rw [if_neg hgt] at hs
              simp only
              rw [if_pos (by omega)]
              have hc := clamp_range (x.rto * 2)
              have st := setTimer_started (x := { x with now := e, events := es, sched := es, backoff := x.backoff + 1, rto := clamp (x.rto * 2), log := x.log ++ [e] }) rfl hsrt.2 hge'
              rw [hs] at st
              have hr : y.rto = clamp (x.rto * 2) := st.rto
              rw [hr]
              exact st.inv (g := { g with log := g.log ++ [e] }) hpos _ _ hpos rfl hc.1 hc.2
                (by simp only; rw [h.lg]) h.es h.ev

theorem GRun.inv {x : T} {g : Spec} (h : GRun x g) : Inv x g := by
  induction h with
  | fresh now h => exact inv_fresh now h
  | step _ ha hs ih => exact inv_step ih ha hs

theorem Run.ghost {x : T} (h : Run x) : ∃ g, GRun x g := by
  induction h with
  | fresh now h => exact ⟨_, .fresh now h⟩
  | step _ ha hs ih => obtain ⟨g, hg⟩ := ih; exact ⟨_, .step hg ha hs⟩

/-! ## C75 -/

/-- C75: timeouts are handled exactly when the specification says: at the end of the time for which the timer was last
started, if it was not stopped. Time never gets past that moment while the timer runs, and does not even reach it
without its event. -/
theorem C75_exact {x : T} {g : Spec} (h : GRun x g) :
    x.log = g.log ∧
    (∀ a m, g.armed = some (a, m) → x.now ≤ a + m * ms ∧ ((∀ e ∈ x.events, x.now < e) → x.now < a + m * ms)) := by
  have i := h.inv
  refine ⟨i.lg, fun a m hg => ?_⟩
  have hap := i.apos a m hg
  have hd : x.desired = a + m * ms := by rw [i.des, hg]; rfl
  obtain ⟨t, h1, h2⟩ := i.head (by omega)
  have hm := List.mem_of_mem_head? h1
  refine ⟨?_, fun hall => ?_⟩
  · have := i.ge t hm; omega
  · have := hall t hm; omega

/-- C75: nothing overflows, the timeout is between 0.2 and 120 seconds, and no two events of a socket are at the same time. -/
theorem C75_safe {x : T} (h : Run x) (a : Act) (ha : allowed x a) :
    (∃ y, step x a = .ok y) ∧ 200 ≤ x.rto ∧ x.rto ≤ 120000 ∧ x.events.Pairwise (· < ·) := by
  obtain ⟨g, hg⟩ := h.ghost
  have i := hg.inv
  refine ⟨?_, i.lo, i.hi, i.srt⟩
  cases a with
  | fire => simp only [step]; split <;> exact ⟨_, rfl⟩
  | echo stamp =>
    simp only [allowed] at ha
    simp only [step]
    split
    · obtain ⟨e', t, he, _⟩ := estimate_ok i.es i.ev (rttOf_le ha.1 ha.2.1 ha.2.2).1
      rw [he, R.bind_ok]
      exact ⟨_, rfl⟩
    · exact ⟨_, rfl⟩
  | _ => exact ⟨_, rfl⟩

/-! ### Backoff -/

/-- `d` ends the first timeout of `r` ms: the times of `k` timeouts in a row, the next end and the next length. -/
def series (d r : Nat) : Nat → List Nat × Nat × Nat
  | 0 => ([], d, r)
  | k + 1 =>
    let s := series d r k
    let r' := min 120000 (s.2.2 * 2)
    (s.1 ++ [s.2.1], s.2.1 + r' * 1000000, r')

theorem series_rto (d r k : Nat) (hr : r ≤ 120000) : (series d r k).2.2 = min 120000 (2 ^ k * r) := by
  induction k with
  | zero => simp only [series]; omega
  | succ k ih =>
    simp only [series, ih]
    rw [Nat.pow_succ]
    generalize h : 2 ^ k * r = q
    have : 2 ^ k * 2 * r = q * 2 := by rw [Nat.mul_right_comm, h]
    rw [this]
    omega

theorem clamp_double {r : Nat} (h : 200 ≤ r) : clamp (r * 2) = min 120000 (r * 2) := by
  unfold clamp rtoMax rtoMin; omega

/-- Only time passes and events run. -/
def Idle : Act → Prop
  | .pass _ => True
  | .fire => True
  | _ => False

/-- Executions of a list of actions. -/
inductive Path : T → List Act → T → Prop
  | nil (x) : Path x [] x
  | snoc {x y z as a} : Path x as y → allowed y a → step y a = .ok z → Path x (as ++ [a]) z

theorem Path.run {x y : T} {as : List Act} (h : Path x as y) (hx : Run x) : Run y := by
  induction h with
  | nil => exact hx
  | snoc _ ha hs ih => exact .step ih ha hs

/-- C75: while nothing is heard of the peer, the timeouts come at times that only depend on the start: each is twice as
long as the last, up to two minutes. -/
theorem C75_backoff {x y : T} {as : List Act} (hx : Run x) (hp : Path x as y) (hi : ∀ a ∈ as, Idle a)
    (hq : x.queued = true) (hc : x.closed = false) (hd : x.desired ≠ 0) :
    ∃ k, y.log = x.log ++ (series x.desired x.rto k).1 ∧ y.desired = (series x.desired x.rto k).2.1 ∧
      y.rto = min 120000 (2 ^ k * x.rto) ∧ y.backoff = x.backoff + k ∧ y.now ≤ (series x.desired x.rto k).2.1 := by
  obtain ⟨g, hg⟩ := hx.ghost
  have hr := hg.inv.hi
  have main : ∃ k, y.log = x.log ++ (series x.desired x.rto k).1 ∧ y.desired = (series x.desired x.rto k).2.1 ∧
      y.rto = (series x.desired x.rto k).2.2 ∧ y.backoff = x.backoff + k ∧ y.queued = true ∧ y.closed = false ∧ y.desired ≠ 0 := by
    induction hp with
    | nil => exact ⟨0, by simp [series], rfl, rfl, rfl, hq, hc, hd⟩
    | @snoc y z as a hp ha hs ih =>
      obtain ⟨k, c1, c2, c3, c4, c5, c6, c7⟩ := ih (fun b hb => hi b (List.mem_append_left _ hb))
      obtain ⟨g', hg'⟩ := (hp.run hx).ghost
      have i := hg'.inv
      have hidle := hi a (List.mem_append_right _ (List.mem_cons_self ..))
      cases a with
      | pass t =>
        simp only [step, R.ok.injEq] at hs
        subst hs
        exact ⟨k, c1, c2, c3, c4, c5, c6, c7⟩
      | fire =>
        simp only [allowed] at ha
        cases hev : y.events with
        | nil => exact absurd hev ha
        | cons e es =>
          simp only [step, hev, R.ok.injEq] at hs
          have hsched : y.sched = e :: es := by rw [i.same, hev]
          have hsrt := i.srt
          rw [hev, List.pairwise_cons] at hsrt
          have hge' : ∀ t ∈ es, e ≤ t := fun t ht => Nat.le_of_lt (hsrt.1 t ht)
          have hle : e ≤ y.desired := by
            obtain ⟨t, h1, h2⟩ := i.head c7
            rw [hev, List.head?_cons, Option.some.injEq] at h1
            omega
          have hpos : 0 < e := by
            have := i.ge e (by rw [hev]; exact List.mem_cons_self ..)
            have := i.pos
            omega
          unfold expired at hs
          simp only [hsched, List.tail_cons] at hs
          rw [if_neg (by simp [c6]), if_neg (by simp [c5]), if_neg c7] at hs
          by_cases hgt : y.desired > e
          · rw [if_pos hgt] at hs
            have st := scheduleIfNeeded_started
                (x := { y with now := e, events := es, sched := es }) rfl hsrt.2 hge' hle
            rw [hs] at st
            exact ⟨k, by rw [st.log]; exact c1, by rw [st.des]; exact c2, by rw [st.rto]; exact c3, by rw [st.backoff]; exact c4,
              by rw [st.queued]; exact c5, by rw [st.closed]; exact c6, by rw [st.des]; exact c7⟩
          · rw [if_neg hgt] at hs
            have he : y.desired = e := by omega
            have st := setTimer_started (x := { y with now := e, events := es, sched := es, backoff := y.backoff + 1, rto := clamp (y.rto * 2), log := y.log ++ [e] }) rfl hsrt.2 hge'
            rw [hs] at st
            have hcl := clamp_double i.lo
            refine ⟨k + 1, ?_, ?_, ?_, ?_, by rw [st.queued]; exact c5, by rw [st.closed]; exact c6, ?_⟩
            · rw [st.log]
              simp only [series]
              rw [c1, ← c2, he, List.append_assoc]
            · rw [st.des]
              simp only [series]
              rw [hcl, ← c2, he, ← c3]
              rfl
            · rw [st.rto]
              simp only [series]
              rw [hcl, ← c3]
            · rw [st.backoff]
              simp only
              omega
            · rw [st.des]
              simp only
              omega
      | _ => exact hidle.elim
  obtain ⟨k, c1, c2, c3, c4, _, _, c7⟩ := main
  obtain ⟨g', hg'⟩ := (hp.run hx).ghost
  have i := hg'.inv
  refine ⟨k, c1, c2, by rw [c3, series_rto _ _ _ hr], c4, ?_⟩
  obtain ⟨t, h1, h2⟩ := i.head c7
  have := i.ge t (List.mem_of_mem_head? h1)
  omega

/-! ### The estimate -/

/-- RFC 6298, section 2, without rounding: both estimates are fractions with the same denominator. -/
structure Rfc where
  s : Nat
  v : Nat
  d : Nat

def Rfc.first (r : Nat) : Rfc := ⟨2 * r, r, 2⟩
/-- SRTT ← 7/8 SRTT + 1/8 R and RTTVAR ← 3/4 RTTVAR + 1/4 |SRTT − R|. -/
def Rfc.next (f : Rfc) (r : Nat) : Rfc := ⟨7 * f.s + r * f.d, 6 * f.v + 2 * dist f.s (r * f.d), 8 * f.d⟩

/-- The estimates of the code after some round trips, and the last timeout. -/
def estimates (e : Est × Nat) : List Nat → R (Est × Nat)
  | [] => .ok e
  | r :: rs => do
    let e' ← estimate e.1 r
    estimates e' rs

/-- How far rounding takes the estimates from those of the RFC. -/
structure Close (e : Est) (f : Rfc) : Prop where
  pos : 0 < f.d
  s1 : e.srtt * f.d ≤ f.s
  s2 : f.s ≤ (e.srtt + 14) * f.d
  v1 : e.var * f.d ≤ f.v + 20 * f.d
  v2 : f.v ≤ (e.var + 20) * f.d

theorem dist_mul (a b d : Nat) : dist a b * d = dist (a * d) (b * d) := by
  unfold dist
  rw [Nat.add_mul, Nat.sub_mul, Nat.sub_mul]

theorem close_next {e : Est} {f : Rfc} (h : Close e f) (r : Nat) :
    Close ⟨7 * e.srtt / 8 + r / 8, 3 * e.var / 4 + dist e.srtt r / 4⟩ (f.next r) := by
  obtain ⟨hp, s1, s2, v1, v2⟩ := h
  have dm := dist_mul e.srtt r f.d
  generalize hs' : 7 * e.srtt / 8 + r / 8 = s'
  generalize hdd : dist e.srtt r = dd at *
  generalize hv' : 3 * e.var / 4 + dd / 4 = v'
  have a1 : 8 * s' ≤ 7 * e.srtt + r := by omega
  have a2 : 7 * e.srtt + r ≤ 8 * s' + 14 := by omega
  have a3 : 8 * v' ≤ 6 * e.var + 2 * dd := by omega
  have a4 : 6 * e.var + 2 * dd ≤ 8 * v' + 12 := by omega
  have b1 := Nat.mul_le_mul_right f.d a1
  have b2 := Nat.mul_le_mul_right f.d a2
  have b3 := Nat.mul_le_mul_right f.d a3
  have b4 := Nat.mul_le_mul_right f.d a4
  simp only [Nat.add_mul, Nat.mul_assoc] at b1 b2 b3 b4 s1 s2 v1 v2
  have d1 : dist f.s (r * f.d) ≤ dd * f.d + 14 * f.d := by rw [dm]; unfold dist; omega
  have d2 : dd * f.d ≤ dist f.s (r * f.d) + 14 * f.d := by rw [dm]; unfold dist; omega
  have c1 : s' * (8 * f.d) = 8 * (s' * f.d) := Nat.mul_left_comm ..
  have c2 : v' * (8 * f.d) = 8 * (v' * f.d) := Nat.mul_left_comm ..
  constructor
  · simp only [Rfc.next]; omega
  · simp only [Rfc.next]; omega
  · simp only [Rfc.next, Nat.add_mul]; omega
  · simp only [Rfc.next]; rw [c2]; omega
  · simp only [Rfc.next, Nat.add_mul]; omega

/-- C75: for round trips of at least 8 ms the estimates follow RFC 6298 up to a bounded loss by rounding, however many
there are: the smoothed round trip is less than that of the RFC by at most 14 ms, the variation differs by at most 20 ms;
the timeout is the sum that the RFC asks for, in its range, and not less than the shortest round trip rounded down to
a multiple of 8 ms. -/
theorem C75_estimate (e0 : Est × Nat) (h0 : e0.1.srtt = 0) (hv0 : e0.1.var ≤ 306783378) (r : Nat) (rs : List Nat) (lo : Nat) (hlo : 8 ≤ lo)
    (h : ∀ q ∈ r :: rs, lo ≤ q ∧ q ≤ 306783378) :
    ∃ e t, estimates e0 (r :: rs) = .ok (e, t) ∧ Close e (rs.foldl Rfc.next (Rfc.first r)) ∧
      t = max (min (e.srtt + 4 * e.var) 120000) 200 ∧ 8 * (lo / 8) ≤ e.srtt := by
  have gen : ∀ (rs : List Nat) (e : Est) (t : Nat) (f : Rfc), Close e f → t = max (min (e.srtt + 4 * e.var) 120000) 200 →
      8 * (lo / 8) ≤ e.srtt → e.srtt ≤ 306783378 → e.var ≤ 306783378 → (∀ q ∈ rs, lo ≤ q ∧ q ≤ 306783378) →
      ∃ e' t', estimates (e, t) rs = .ok (e', t') ∧ Close e' (rs.foldl Rfc.next f) ∧
        t' = max (min (e'.srtt + 4 * e'.var) 120000) 200 ∧ 8 * (lo / 8) ≤ e'.srtt := by
    intro rs
    induction rs with
    | nil => intro e t f hc ht hl _ _ _; exact ⟨e, t, rfl, hc, ht, hl⟩
    | cons q qs ih =>
      intro e t f hc ht hl hs hv hq
      have hq1 := hq q (List.mem_cons_self ..)
      obtain ⟨e', t', he, b1, b2, b3, b4, b5, b6⟩ := estimate_ok hs hv hq1.2
      have hn : e.srtt ≠ 0 := by omega
      rw [if_neg hn] at b6
      have hc' := close_next hc q
      rw [← b6] at hc'
      have hl' : 8 * (lo / 8) ≤ e'.srtt := by rw [b6]; simp only; omega
      obtain ⟨e2, t2, g1, g2, g3, g4⟩ := ih e' t' (f.next q) hc' b5 hl' b1 b2 (fun p hp => hq p (List.mem_cons_of_mem _ hp))
      refine ⟨e2, t2, ?_, g2, g3, g4⟩
      unfold estimates
      simp only [he, R.bind_ok]
      exact g1
  have hr := h r (List.mem_cons_self ..)
  obtain ⟨e', t', he, b1, b2, b3, b4, b5, b6⟩ := estimate_ok (e := e0.1) (by omega) hv0 hr.2
  rw [if_pos h0] at b6
  have hc : Close e' (Rfc.first r) := by
    rw [b6]
    constructor <;> simp only [Rfc.first] <;> omega
  obtain ⟨e2, t2, g1, g2, g3, g4⟩ := gen rs e' t' _ hc b5 (by rw [b6]; simp only; omega) b1 b2
    (fun p hp => h p (List.mem_cons_of_mem _ hp))
  refine ⟨e2, t2, ?_, g2, g3, g4⟩
  unfold estimates
  simp only [he, R.bind_ok]
  exact g1

/-- C75: a time stamp that comes back counts as a round trip of whole milliseconds, at least one, and only while no
timeout is unanswered; after more than two timeouts the next acknowledgement starts the estimate afresh with one second. -/
theorem C75_samples {x y : T} (h : Run x) :
    (∀ stamp, allowed x (.echo stamp) → step x (.echo stamp) = .ok y →
      if stamp = 0 ∨ x.backoff ≠ 0 then y = x
      else estimate x.est (max 1 ((x.now - stamp) / 1000000)) = .ok (y.est, y.rto)) ∧
    (∀ zero q, step x (.ack true zero q) = .ok y → y.backoff = 0 ∧
      if x.backoff > 2 then y.est = ⟨0, 0⟩ ∧ y.rto = 1000 else y.est = x.est ∧ y.rto = x.rto) := by
  obtain ⟨g, hg⟩ := h.ghost
  have i := hg.inv
  refine ⟨fun stamp ha hs => ?_, fun zero q hs => ?_⟩
  · simp only [allowed] at ha
    simp only [step] at hs
    by_cases hc : stamp ≠ 0 ∧ x.backoff = 0
    · rw [if_pos hc] at hs
      rw [if_neg (by omega)]
      have e := (rttOf_le ha.1 ha.2.1 ha.2.2).2
      obtain ⟨e', t, he, _⟩ := estimate_ok i.es i.ev (rttOf_le ha.1 ha.2.1 ha.2.2).1
      rw [he, R.bind_ok, R.ok.injEq] at hs
      rw [e] at he
      rw [← hs]
      exact he
    · rw [if_neg hc, R.ok.injEq] at hs
      rw [if_pos (by omega)]
      exact hs.symm
  · simp only [step, if_true, R.ok.injEq] at hs
    have key : ∀ (b : Bool) (z : T), z.sched = x.sched → z.events = x.events → z.now = x.now →
        (if b then stopTimer z else setTimer z).backoff = z.backoff ∧
        (if b then stopTimer z else setTimer z).est = z.est ∧ (if b then stopTimer z else setTimer z).rto = z.rto := by
      intro b z z1 z2 z3
      cases b with
      | true => exact ⟨rfl, rfl, rfl⟩
      | false =>
        have st := setTimer_started (x := z) (by rw [z1, z2]; exact i.same) (by rw [z2]; exact i.srt)
          (by rw [z2, z3]; exact i.ge)
        exact ⟨st.backoff, st.est, st.rto⟩
    by_cases hb : x.backoff > 2
    · rw [if_pos hb] at hs ⊢
      have := key zero { x with queued := q, est := ⟨0, 0⟩, rto := clamp rtoInit, backoff := 0 } rfl rfl rfl
      rw [hs] at this
      exact ⟨this.1, this.2.1, this.2.2⟩
    · rw [if_neg hb] at hs ⊢
      have := key zero { x with queued := q, backoff := 0 } rfl rfl rfl
      rw [hs] at this
      exact ⟨this.1, this.2.1, this.2.2⟩

/-! ## Findings -/

/-- Samples that are all the same. -/
theorem same_step {e : Est} {r : Nat} (hs : e.srtt ≤ 306783378) (hv : e.var ≤ 306783378) (hr : r ≤ 306783378) (h0 : e.srtt ≠ 0) :
    estimate e r = .ok (⟨7 * e.srtt / 8 + r / 8, 3 * e.var / 4 + dist e.srtt r / 4⟩,
      clamp (7 * e.srtt / 8 + r / 8 + 4 * (3 * e.var / 4 + dist e.srtt r / 4))) := by
  obtain ⟨e', t, he, _, _, _, _, b5, b6⟩ := estimate_ok hs hv hr
  rw [if_neg h0] at b6
  rw [he, b5, b6]

/-- Finding: with round trips that always take `r` ms, more than 200 ms and up to three more than a multiple of 8, the
timeout becomes the multiple of 8: it is over before the answer can come, for every packet. -/
theorem C75_too_short (r : Nat) (h1 : 200 ≤ 8 * (r / 8)) (h2 : r % 8 ≤ 3) (h3 : r ≤ 120000) :
    ∃ k, ∀ n, k ≤ n → ∀ t0, ∃ e, estimates (⟨0, 0⟩, t0) (List.replicate n r) = .ok (e, 8 * (r / 8)) := by
  -- once the estimate is a multiple of 8 and the variation is gone, nothing changes
  have stay : ∀ n t, t = 8 * (r / 8) → estimates (⟨8 * (r / 8), 0⟩, t) (List.replicate n r) = .ok (⟨8 * (r / 8), 0⟩, 8 * (r / 8)) := by
    intro n
    induction n with
    | zero => intro t ht; rw [ht]; rfl
    | succ n ih =>
      intro t ht
      rw [List.replicate_succ]
      unfold estimates
      rw [same_step (by simp only; omega) (by simp) (by omega) (by simp only; omega), R.bind_ok]
      have e1 : 7 * (8 * (r / 8)) / 8 + r / 8 = 8 * (r / 8) := by omega
      have e2 : 3 * 0 / 4 + dist (8 * (r / 8)) r / 4 = 0 := by unfold dist; omega
      simp only [e1, e2]
      exact ih _ (by unfold clamp rtoMax rtoMin; omega)
  -- it gets there
  have get : ∀ m v q t, v + q ≤ m → q ≤ 3 → v ≤ 60000 → (v + q = 0 → t = 8 * (r / 8)) →
      ∃ k, ∀ n, k ≤ n → ∃ e, estimates (⟨8 * (r / 8) + q, v⟩, t) (List.replicate n r) = .ok (e, 8 * (r / 8)) := by
    intro m
    induction m with
    | zero =>
      intro v q t h _ _ ht
      have hv : v = 0 := by omega
      have hq : q = 0 := by omega
      subst hv hq
      exact ⟨0, fun n _ => ⟨_, stay n t (ht rfl)⟩⟩
    | succ m ih =>
      intro v q t h hq hv ht
      by_cases hz : v + q = 0
      · have hv : v = 0 := by omega
        have hq : q = 0 := by omega
        subst hv hq
        exact ⟨0, fun n _ => ⟨_, stay n t (ht rfl)⟩⟩
      · have e1 : 7 * (8 * (r / 8) + q) / 8 + r / 8 = 8 * (r / 8) + (q - 1) := by omega
        have e2 : 3 * v / 4 + dist (8 * (r / 8) + q) r / 4 = 3 * v / 4 := by unfold dist; omega
        obtain ⟨k, hk⟩ := ih (3 * v / 4) (q - 1) (clamp (8 * (r / 8) + (q - 1) + 4 * (3 * v / 4))) (by omega) (by omega) (by omega)
          (by intro hz; have a : 3 * v / 4 = 0 := by omega
              have b : q - 1 = 0 := by omega
              rw [a, b]; unfold clamp rtoMax rtoMin; omega)
        refine ⟨k + 1, fun n hn => ?_⟩
        obtain ⟨n', rfl⟩ : ∃ n', n = n' + 1 := ⟨n - 1, by omega⟩
        obtain ⟨e, he⟩ := hk n' (by omega)
        refine ⟨e, ?_⟩
        rw [List.replicate_succ]
        unfold estimates
        rw [same_step (by simp only; omega) (by simp only; omega) (by omega) (by simp only; omega), R.bind_ok]
        simp only [e1, e2]
        exact he
  obtain ⟨k, hk⟩ := get (r / 2 + r % 8) (r / 2) (r % 8) (clamp (r + 4 * (r / 2))) (by omega) h2 (by omega)
    (by intro hz; omega)
  refine ⟨k + 1, fun n hn t0 => ?_⟩
  obtain ⟨n', rfl⟩ : ∃ n', n = n' + 1 := ⟨n - 1, by omega⟩
  obtain ⟨e, he⟩ := hk n' (by omega)
  refine ⟨e, ?_⟩
  rw [List.replicate_succ]
  unfold estimates
  obtain ⟨e', t, ha, _, _, _, _, b5, b6⟩ := estimate_ok (e := ⟨0, 0⟩) (r := r) (by simp) (by simp) (by omega)
  simp only [if_true] at b6
  simp only [ha, R.bind_ok]
  rw [b5, b6]
  simp only
  have e3 : 8 * (r / 8) + r % 8 = r := by omega
  rw [e3] at he
  exact he

/-- Finding: with round trips that always take the same 1 to 7 ms, the estimate sinks to zero by one with every sample, and the
next one counts as the first again. -/
theorem C75_forgets (r : Nat) (h1 : 1 ≤ r) (h2 : r ≤ 7) (t0 : Nat) :
    ∃ v t, estimates (⟨0, 0⟩, t0) (List.replicate (r + 1) r) = .ok (⟨0, v⟩, t) := by
  have : r = 1 ∨ r = 2 ∨ r = 3 ∨ r = 4 ∨ r = 5 ∨ r = 6 ∨ r = 7 := by omega
  rcases this with rfl | rfl | rfl | rfl | rfl | rfl | rfl <;> exact ⟨_, _, rfl⟩

/-- Finding: the variation of a round trip that takes longer than 429496729 ms, and the next estimate after one of more
than 306783378 ms, are computed with numbers that are too large for a `gint`. -/
theorem C75_overflow : estimate ⟨0, 0⟩ 800000000 = .panic ∧ estimate ⟨306783379, 0⟩ 1 = .panic := by
  decide +kernel

end Shadow.Rto
