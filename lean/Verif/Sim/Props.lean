import Verif.Sim.Threads

/-!
# C03, C04, C05, C06, C08, C09: rounds, schedules, causality, windows

The statements quantify over every program (`Prog`), every number of hosts and worker threads,
every interleaving (`Steps`), every number of rounds (`Run`).
-/
namespace Shadow.Sim
open Shadow.Ev

set_option linter.unusedSectionVars false
set_option linter.unusedSimpArgs false

variable {H P : Type} [DecidableEq P]

/-! ## Specification vocabulary -/

/-- Two worlds that differ at most in the (meaningless) order in which the heap of a host stores
    its events. -/
structure SameWorld (n : Nat) (w w' : World H P) : Prop where
  minUsed : w.minUsed = w'.minUsed
  st : ∀ id, id < n → (w.hosts id).st = (w'.hosts id).st
  nextId : ∀ id, id < n → (w.hosts id).nextId = (w'.hosts id).nextId
  ran : ∀ id, id < n → (w.hosts id).ran = (w'.hosts id).ran
  sent : ∀ id, id < n → (w.hosts id).sent = (w'.hosts id).sent
  clock : ∀ id, id < n → (w.hosts id).clock = (w'.hosts id).clock
  last : ∀ id, id < n → (w.hosts id).queue.lastPopped = (w'.hosts id).queue.lastPopped
  events : ∀ id, id < n → (w.hosts id).queue.events.Perm (w'.hosts id).queue.events

/-- `t` is the time of the earliest event queued on any host. -/
def Earliest (n : Nat) (w : World H P) (t : Nat) : Prop :=
  (∃ id, id < n ∧ ∃ e ∈ (w.hosts id).queue.events, e.time = t) ∧
  ∀ id, id < n → ∀ e ∈ (w.hosts id).queue.events, t ≤ e.time

/-- A world as it is handed to the first round: nothing has run; each host has a queue of local
    tasks with distinct numbers taken from its counter, none before the start time. -/
structure Initial (n start : Nat) (w : World H P) : Prop where
  phase : ∀ id, id < n → (w.hosts id).phase = .done
  ran : ∀ id, id < n → (w.hosts id).ran = []
  clock : ∀ id, id < n → (w.hosts id).clock = start
  last : ∀ id, id < n → (w.hosts id).queue.lastPopped = start
  minUsed : w.minUsed = none
  tasks : ∀ id, id < n → ∀ e ∈ (w.hosts id).queue.events, start ≤ e.time ∧
    ∃ p i, e.data = .local p i ∧ i < (w.hosts id).nextId
  distinct : ∀ id, id < n → DistinctIds (w.hosts id).queue.events

/-- Invariant between rounds; the next window starts at `lo`. -/
structure Ready (n lo : Nat) (w : World H P) : Prop where
  phase : ∀ id, id < n → (w.hosts id).phase = .done
  distinct : ∀ id, id < n → DistinctIds ((w.hosts id).ran ++ (w.hosts id).queue.events)
  localId : ∀ id, id < n → ∀ e ∈ (w.hosts id).ran ++ (w.hosts id).queue.events,
    ∀ p i, e.data = .local p i → i < (w.hosts id).nextId
  sorted : ∀ id, id < n → (w.hosts id).ran.Pairwise Before
  ranBefore : ∀ id, id < n → ∀ r ∈ (w.hosts id).ran, ∀ e ∈ (w.hosts id).queue.events, Before r e
  ranTime : ∀ id, id < n → ∀ r ∈ (w.hosts id).ran, r.time ≤ (w.hosts id).queue.lastPopped
  qinv : ∀ id, id < n → QInv (w.hosts id).queue
  lower : ∀ id, id < n → ∀ e ∈ (w.hosts id).queue.events, lo ≤ e.time
  last : ∀ id, id < n → (w.hosts id).queue.lastPopped ≤ lo
  clk : ∀ id, id < n → (w.hosts id).clock ≤ lo
  pktId : ∀ id, id < n → ∀ e ∈ (w.hosts id).ran ++ (w.hosts id).queue.events, ∀ p j i,
    e.data = .packet p j i → j < n ∧ i < (w.hosts j).nextId

/-- A state inside some round of a run that started in `w0` with window `win0`: `win` is the
    current window and `w` the world at the beginning of the round. -/
def Reach (cfg : Cfg) (prog : Prog H P) (w0 : World H P) (win0 : Nat × Nat)
    (w : World H P) (win : Nat × Nat) (g : G H P) : Prop :=
  ∃ wins nThreads, Run cfg prog w0 (some win0) wins w (some win) ∧
    Steps cfg prog win.2 (startRound w nThreads) g

/-! ## Auxiliary facts -/

theorem initial_ready {n start : Nat} {w : World H P} (h : Initial n start w) :
    Ready n start w := by
  refine ⟨h.phase, ?_, ?_, ?_, ?_, ?_, ?_, fun id hid e he => (h.tasks id hid e he).1, ?_, ?_, ?_⟩
  · intro id hid; rw [h.ran id hid]; exact h.distinct id hid
  · intro id hid e he p i hd
    rw [h.ran id hid] at he
    obtain ⟨-, p', i', h1, h2⟩ := h.tasks id hid e (by simpa using he)
    rw [h1] at hd; injection hd with h3 h4; omega
  · intro id hid; rw [h.ran id hid]; simp
  · intro id hid; rw [h.ran id hid]; simp
  · intro id hid; rw [h.ran id hid]; simp
  · intro id hid e he; rw [h.last id hid]; exact (h.tasks id hid e he).1
  · intro id hid; rw [h.last id hid]; exact Nat.le_refl _
  · intro id hid; rw [h.clock id hid]; exact Nat.le_refl _
  · intro id hid e he p j i hd
    rw [h.ran id hid] at he
    obtain ⟨-, p', i', h1, h2⟩ := h.tasks id hid e (by simpa using he)
    rw [h1] at hd; cases hd

theorem sameWorld_refl (n : Nat) (w : World H P) : SameWorld n w w :=
  ⟨rfl, fun _ _ => rfl, fun _ _ => rfl, fun _ _ => rfl, fun _ _ => rfl, fun _ _ => rfl,
   fun _ _ => rfl, fun _ _ => List.Perm.refl _⟩

theorem sameWorld_symm {n : Nat} {w w' : World H P} (h : SameWorld n w w') : SameWorld n w' w :=
  ⟨h.minUsed.symm, fun i hi => (h.st i hi).symm, fun i hi => (h.nextId i hi).symm,
   fun i hi => (h.ran i hi).symm, fun i hi => (h.sent i hi).symm, fun i hi => (h.clock i hi).symm,
   fun i hi => (h.last i hi).symm, fun i hi => (h.events i hi).symm⟩

theorem ready_same {n lo : Nat} {w w' : World H P} (hr : Ready n lo w) (h : SameWorld n w w')
    (hp : ∀ id, id < n → (w'.hosts id).phase = .done) : Ready n lo w' := by
  have hperm : ∀ id, id < n → ((w.hosts id).ran ++ (w.hosts id).queue.events).Perm
      ((w'.hosts id).ran ++ (w'.hosts id).queue.events) := by
    intro id hid; rw [h.ran id hid]; exact List.Perm.append_left _ (h.events id hid)
  refine ⟨hp, ?_, ?_, ?_, ?_, ?_, ?_, ?_, ?_, ?_, ?_⟩
  · intro id hid; exact distinctIds_perm (hperm id hid) (hr.distinct id hid)
  · intro id hid e he p i hd
    rw [← h.nextId id hid]
    exact hr.localId id hid e ((hperm id hid).mem_iff.mpr he) p i hd
  · intro id hid; rw [← h.ran id hid]; exact hr.sorted id hid
  · intro id hid r hr' e he
    rw [← h.ran id hid] at hr'
    exact hr.ranBefore id hid r hr' e ((h.events id hid).mem_iff.mpr he)
  · intro id hid r hr'
    rw [← h.ran id hid] at hr'; rw [← h.last id hid]
    exact hr.ranTime id hid r hr'
  · intro id hid e he
    rw [← h.last id hid]
    exact hr.qinv id hid e ((h.events id hid).mem_iff.mpr he)
  · intro id hid e he
    exact hr.lower id hid e ((h.events id hid).mem_iff.mpr he)
  · intro id hid; rw [← h.last id hid]; exact hr.last id hid
  · intro id hid; rw [← h.clock id hid]; exact hr.clk id hid
  · intro id hid e he p j i hd
    have := hr.pktId id hid e ((hperm id hid).mem_iff.mpr he) p j i hd
    rw [← h.nextId j this.1]
    exact this

/-- The hosts at the beginning of a round. -/
def startHosts (w : World H P) : Nat → Host H P :=
  fun i => { w.hosts i with phase := .waiting, sent := [] }

theorem start_rinv {cfg : Cfg} {prog : Prog H P} {lo re : Nat} {w w0 : World H P} (k : Nat)
    (hr : Ready cfg.n lo w) (hw : lo < re) (hsame : SameWorld cfg.n w w0) :
    RInv cfg prog lo re (startHosts w0) w0.minUsed (startRound w k) := by
  have hrec : ∀ d, received cfg.n (startRound w k).hosts d = [] := by
    intro d; simp [received, startRound]
  have hthr : ∀ (i : Nat) (th : Thread), (startRound w k).threads[i]? = some th →
      th = ⟨none, none, none⟩ := by
    intro i th h
    simp [startRound, List.getElem?_replicate] at h
    exact h.2.symm
  refine ⟨⟨?_, ?_, ?_⟩, ⟨?_, ?_⟩, ⟨?_, ?_, ?_⟩, ⟨?_, ?_⟩⟩
  · intro id hid
    refine ⟨by simpa [all, startRound] using hr.distinct id hid,
      by simpa [all, startRound] using hr.localId id hid, hr.sorted id hid,
      by simpa [startRound] using hr.ranBefore id hid, hr.ranTime id hid, hr.qinv id hid,
      by simpa [startRound] using hr.lower id hid, by simp [startRound], by simp [startRound],
      ?_, hw, by simp [startRound], by simp [startRound], ?_, by simp [startRound]⟩
    · have := hr.last id hid; simp [startRound]; omega
    · have := hr.clk id hid; simp [startRound]; omega
  · intro id hid; simpa [all, startRound] using hr.pktId id hid
  · intro id hid
    refine ⟨0, _, [], rfl, ?_, by rw [hrec]⟩
    exact ⟨hsame.st id hid, hsame.nextId id hid, rfl, hsame.ran id hid, rfl, hsame.clock id hid,
      hsame.last id hid, by simpa [startHosts, startRound] using hsame.events id hid, by simp⟩
  · intro id hid hd; simp [startRound] at hd
  · intro i th hth t ht
    rw [hthr i th hth] at ht; simp at ht
  · intro i th id hth hc
    rw [hthr i th hth] at hc; simp at hc
  · intro i j thi thj id hi _ hc _
    rw [hthr i thi hi] at hc; simp at hc
  · intro id hid hw'; simp [startRound] at hw'
  · intro hd m
    have : ∀ l, Used cfg.n w0.minUsed (startRound w k).hosts l ↔ w0.minUsed = some l := by
      intro l; simp [Used, startRound]
    rw [least_congr this]
    simp only [startRound, hsame.minUsed, Least]
    constructor
    · intro h
      refine ⟨h, fun x hx => ?_⟩
      rw [h] at hx; simp at hx; omega
    · exact fun h => h.1
  · intro _; simp [startRound, hsame.minUsed]

theorem solo_none_succ {cfg : Cfg} {prog : Prog H P} {re id k : Nat} {a : Host H P}
    (h : soloRun cfg prog re id k a = none) (j : Nat) : soloRun cfg prog re id (k + j) a = none := by
  induction j with
  | zero => exact h
  | succ j ih => rw [← Nat.add_assoc]; simp [soloRun, ih]

/-- A host alone reaches at most one final state. -/
theorem solo_unique {cfg : Cfg} {prog : Prog H P} {re id k1 k2 : Nat} {a b c : Host H P}
    (h1 : soloRun cfg prog re id k1 a = some b) (h2 : soloRun cfg prog re id k2 a = some c)
    (hb : b.phase = .done) (hc : c.phase = .done) : b = c := by
  have key : ∀ {k1 k2 : Nat} {b c : Host H P}, soloRun cfg prog re id k1 a = some b →
      soloRun cfg prog re id k2 a = some c → b.phase = .done → k1 ≤ k2 → b = c := by
    intro k1 k2 b c h1 h2 hb hle
    obtain ⟨j, rfl⟩ := Nat.exists_eq_add_of_le hle
    cases j with
    | zero => rw [Nat.add_zero, h1] at h2; simpa using h2
    | succ j =>
      have hl : lstep cfg prog re id b = none := by unfold lstep; simp [hb]
      have : soloRun cfg prog re id (k1 + 1) a = none := by simp [soloRun, h1, hl]
      have := solo_none_succ this j
      rw [show k1 + 1 + j = k1 + (j + 1) by omega] at this
      rw [this] at h2; simp at h2
  rcases Nat.le_total k1 k2 with h | h
  · exact key h1 h2 hb h
  · exact (key h2 h1 hc h).symm

theorem reduce_aux (ts : List Thread) (a : Option Nat) :
    let rdc := ts.foldl (fun m th => omin m (omin th.acc th.pkt)) a
    (∀ t, rdc = some t → (a = some t ∨ ∃ th ∈ ts, th.acc = some t ∨ th.pkt = some t)) ∧
    (∀ x, (a = some x ∨ ∃ th ∈ ts, th.acc = some x ∨ th.pkt = some x) → ∃ t, rdc = some t ∧ t ≤ x) := by
  induction ts generalizing a with
  | nil => exact ⟨fun t h => .inl h, fun x h => ⟨x, by simpa using h, Nat.le_refl _⟩⟩
  | cons th ts ih =>
    simp only [List.foldl_cons]
    obtain ⟨h1, h2⟩ := ih (omin a (omin th.acc th.pkt))
    constructor
    · intro t ht
      rcases h1 t ht with h3 | ⟨th', h3, h4⟩
      · rcases (omin_some h3).1 with h4 | h4
        · exact .inl h4
        · exact .inr ⟨th, by simp, (omin_some h4).1⟩
      · exact .inr ⟨th', by simp [h3], h4⟩
    · intro x hx
      have hcase : (∃ y, omin a (omin th.acc th.pkt) = some y ∧ y ≤ x) ∨
          ∃ th' ∈ ts, th'.acc = some x ∨ th'.pkt = some x := by
        rcases hx with hx | ⟨th', h3, h4⟩
        · exact .inl (omin_low (.inl hx))
        · rcases List.mem_cons.mp h3 with rfl | h3
          · obtain ⟨y, h5, h6⟩ := omin_low h4
            obtain ⟨z, h7, h8⟩ := omin_low (a := a) (.inr h5)
            exact .inl ⟨z, h7, by omega⟩
          · exact .inr ⟨th', h3, h4⟩
      rcases hcase with ⟨y, h5, h6⟩ | h5
      · obtain ⟨t, h7, h8⟩ := h2 y (.inl h5)
        exact ⟨t, h7, by omega⟩
      · exact h2 x (.inr h5)

/-- At the end of a round the threads' minimum is the earliest event time of all hosts. -/
theorem reduce_spec {cfg : Cfg} {prog : Prog H P} {lo re : Nat} {r : Nat → Host H P}
    {mu0 : Option Nat} {g : G H P} (hi : RInv cfg prog lo re r mu0 g) (hc : Complete cfg g) :
    (∀ t, reduceThreads g.threads = some t ↔ Earliest cfg.n ⟨g.hosts, g.minUsed⟩ t) ∧
    (reduceThreads g.threads = none ↔ ∀ id, id < cfg.n → (g.hosts id).queue.events = []) ∧
    (∀ t, reduceThreads g.threads = some t → re ≤ t) := by
  obtain ⟨h1, h2⟩ := reduce_aux g.threads none
  have hfwd : ∀ t, reduceThreads g.threads = some t →
      re ≤ t ∧ Earliest cfg.n ⟨g.hosts, g.minUsed⟩ t := by
    intro t ht
    rcases h1 t ht with h3 | ⟨th, h3, h4⟩
    · simp at h3
    obtain ⟨i, hi'⟩ := List.mem_iff_getElem?.mp h3
    obtain ⟨h5, h6⟩ := hi.tinv.real i th hi' t h4
    refine ⟨h5, h6, ?_⟩
    intro id hid e he
    obtain ⟨j, thj, hj, x, hx, hxe⟩ := hi.tinv.low id hid (hc.1 id hid) e he
    obtain ⟨t', h7, h8⟩ := h2 x (.inr ⟨thj, List.mem_of_getElem? hj, hx⟩)
    have : t = t' := by
      have h9 : reduceThreads g.threads = some t' := h7
      rw [ht] at h9; simpa using h9
    simp only at *
    omega
  have hlow : ∀ id, id < cfg.n → ∀ e ∈ (g.hosts id).queue.events,
      ∃ t, reduceThreads g.threads = some t := by
    intro id hid e he
    obtain ⟨j, thj, hj, x, hx, hxe⟩ := hi.tinv.low id hid (hc.1 id hid) e he
    obtain ⟨t', h7, h8⟩ := h2 x (.inr ⟨thj, List.mem_of_getElem? hj, hx⟩)
    exact ⟨t', h7⟩
  refine ⟨?_, ?_, fun t ht => (hfwd t ht).1⟩
  · intro t
    constructor
    · exact fun ht => (hfwd t ht).2
    · intro ⟨⟨id, hid, e, he, het⟩, hmin⟩
      obtain ⟨t', ht'⟩ := hlow id hid e he
      obtain ⟨⟨id2, hid2, e2, he2, het2⟩, hmin2⟩ := (hfwd t' ht').2
      have h3 := hmin2 id hid e he
      have h4 := hmin id2 hid2 e2 he2
      simp only at *
      rw [ht']; congr 1; omega
  · constructor
    · intro hn id hid
      cases hq : (g.hosts id).queue.events with
      | nil => rfl
      | cons e es =>
        obtain ⟨t, ht⟩ := hlow id hid e (by simp [hq])
        rw [hn] at ht; simp at ht
    · intro hall
      cases hn : reduceThreads g.threads with
      | none => rfl
      | some t =>
        obtain ⟨⟨id, hid, e, he, -⟩, -⟩ := (hfwd t hn).2
        simp only at he
        rw [hall id hid] at he; simp at he

theorem earliest_unique {n : Nat} {w : World H P} {t t' : Nat} (h : Earliest n w t)
    (h' : Earliest n w t') : t = t' := by
  obtain ⟨⟨id, hid, e, he, het⟩, hm⟩ := h
  obtain ⟨⟨id', hid', e', he', het'⟩, hm'⟩ := h'
  have := hm id' hid' e' he'
  have := hm' id hid e he
  omega

theorem earliest_same {n : Nat} {w w' : World H P} (hs : SameWorld n w w') {t : Nat}
    (h : Earliest n w t) : Earliest n w' t := by
  obtain ⟨⟨id, hid, e, he, het⟩, hm⟩ := h
  exact ⟨⟨id, hid, e, (hs.events id hid).mem_iff.mp he, het⟩,
    fun j hj x hx => hm j hj x ((hs.events j hj).mem_iff.mpr hx)⟩

/-- What a complete round leaves behind: the world is ready for any window that starts at or
    after the end of this one and not after an event. -/
theorem complete_ready {cfg : Cfg} {prog : Prog H P} {lo re lo' : Nat} {r : Nat → Host H P}
    {mu0 : Option Nat} {g : G H P} (hi : RInv cfg prog lo re r mu0 g) (hc : Complete cfg g)
    (h1 : re ≤ lo') (h2 : ∀ id, id < cfg.n → ∀ e ∈ (g.hosts id).queue.events, lo' ≤ e.time) :
    Ready cfg.n lo' ⟨g.hosts, g.minUsed⟩ := by
  have hh : ∀ id, id < cfg.n → held (g.hosts id).phase = [] := by
    intro id hid; rw [hc.1 id hid]; rfl
  refine ⟨hc.1, ?_, ?_, fun id hid => (hi.core.host id hid).sorted, ?_,
    fun id hid => (hi.core.host id hid).ranTime, fun id hid => (hi.core.host id hid).qinv, h2, ?_,
    ?_, ?_⟩
  · intro id hid
    have := (hi.core.host id hid).distinct; simpa [all, hh id hid] using this
  · intro id hid
    have := (hi.core.host id hid).localId; simpa [all, hh id hid] using this
  · intro id hid
    have := (hi.core.host id hid).ranBefore; simpa [hh id hid] using this
  · intro id hid; have := (hi.core.host id hid).last; simp only; omega
  · intro id hid; have := (hi.core.host id hid).clk; simp only; omega
  · intro id hid
    have := hi.core.pktId id hid; simpa [all, hh id hid] using this

/-- Two complete states of the same round agree. -/
theorem complete_same {cfg : Cfg} {prog : Prog H P} {lo re : Nat} {r : Nat → Host H P}
    {mu0 : Option Nat} {g1 g2 : G H P} (h1 : RInv cfg prog lo re r mu0 g1)
    (h2 : RInv cfg prog lo re r mu0 g2) (c1 : Complete cfg g1) (c2 : Complete cfg g2) :
    SameWorld cfg.n ⟨g1.hosts, g1.minUsed⟩ ⟨g2.hosts, g2.minUsed⟩ := by
  have key : ∀ id, id < cfg.n → ∃ s inc1 inc2, Rel re (g1.hosts id) s inc1 ∧
      Rel re (g2.hosts id) s inc2 ∧ inc1.Perm (received cfg.n g1.hosts id) ∧
      inc2.Perm (received cfg.n g2.hosts id) := by
    intro id hid
    obtain ⟨k1, s1, i1, a1, b1, d1⟩ := h1.core.solo id hid
    obtain ⟨k2, s2, i2, a2, b2, d2⟩ := h2.core.solo id hid
    have : s1 = s2 := solo_unique a1 a2 (by rw [← b1.phase]; exact c1.1 id hid)
      (by rw [← b2.phase]; exact c2.1 id hid)
    subst this
    exact ⟨s1, i1, i2, b1, b2, d1, d2⟩
  have hsent : ∀ id, id < cfg.n → (g1.hosts id).sent = (g2.hosts id).sent := by
    intro id hid
    obtain ⟨s, i1, i2, b1, b2, -, -⟩ := key id hid
    rw [b1.sent, b2.sent]
  have hrec : ∀ id, received cfg.n g1.hosts id = received cfg.n g2.hosts id :=
    received_congr hsent
  refine ⟨?_, ?_, ?_, ?_, hsent, ?_, ?_, ?_⟩
  · cases hd : cfg.ra.dynamic with
    | false => rw [h1.minv.static hd, h2.minv.static hd]
    | true =>
      apply Option.ext
      intro m
      rw [h1.minv.dyn hd m, h2.minv.dyn hd m]
      exact least_congr (fun l => used_congr hsent l) m
  · intro id hid
    obtain ⟨s, i1, i2, b1, b2, -, -⟩ := key id hid
    exact b1.st.trans b2.st.symm
  · intro id hid
    obtain ⟨s, i1, i2, b1, b2, -, -⟩ := key id hid
    exact b1.nextId.trans b2.nextId.symm
  · intro id hid
    obtain ⟨s, i1, i2, b1, b2, -, -⟩ := key id hid
    exact b1.ran.trans b2.ran.symm
  · intro id hid
    obtain ⟨s, i1, i2, b1, b2, -, -⟩ := key id hid
    exact b1.clock.trans b2.clock.symm
  · intro id hid
    obtain ⟨s, i1, i2, b1, b2, -, -⟩ := key id hid
    exact b1.last.trans b2.last.symm
  · intro id hid
    obtain ⟨s, i1, i2, b1, b2, d1, d2⟩ := key id hid
    have : i1.Perm i2 := d1.trans (by rw [hrec id]; exact d2.symm)
    exact b1.perm.trans ((List.Perm.append_left _ this).trans b2.perm.symm)

/-! ## C03: schedule independence -/

/-- **C03 (one round).** Two executions of the same round, from worlds that differ at most in the
    storage order of the heaps, with any numbers of threads, any assignment of hosts to threads
    and any interleaving, end in the same world and announce the same next window. -/
theorem C03_round {cfg : Cfg} {prog : Prog H P} {lo re : Nat} {w w' w1 w2 : World H P}
    {win1 win2 : Option (Nat × Nat)} (hr : Ready cfg.n lo w) (hr' : Ready cfg.n lo w')
    (hw : lo < re) (hsame : SameWorld cfg.n w w')
    (h1 : Round cfg prog re w w1 win1) (h2 : Round cfg prog re w' w2 win2) :
    SameWorld cfg.n w1 w2 ∧ win1 = win2 := by
  cases h1 with
  | mk k1 g1 s1 c1 =>
  cases h2 with
  | mk k2 g2 s2 c2 =>
    have i1 := steps_rinv s1 (start_rinv k1 hr hw hsame)
    have i2 := steps_rinv s2 (start_rinv (prog := prog) k2 hr' hw (sameWorld_refl _ w'))
    have hs := complete_same i1 i2 c1 c2
    refine ⟨hs, ?_⟩
    have hmin : reduceThreads g1.threads = reduceThreads g2.threads := by
      obtain ⟨a1, a2, -⟩ := reduce_spec i1 c1
      obtain ⟨b1, b2, -⟩ := reduce_spec i2 c2
      apply Option.ext
      intro t
      rw [a1 t, b1 t]
      exact ⟨fun h => earliest_same hs h, fun h => earliest_same (sameWorld_symm hs) h⟩
    have hmu : g1.minUsed = g2.minUsed := hs.minUsed
    rw [hmin, hmu]

theorem nextWindow_some {cfg : Cfg} {mu mn : Option Nat} {a b : Nat}
    (h : nextWindow cfg mu mn = some (a, b)) :
    mn = some a ∧ b = min (a + cfg.ra.get mu) cfg.simEnd ∧ a < b := by
  unfold nextWindow at h
  split at h
  · simp at h
  · simp only at h
    split at h
    · simp at h; obtain ⟨rfl, rfl⟩ := h
      exact ⟨rfl, rfl, by assumption⟩
    · simp at h

/-- After a round the world is ready for the announced window. -/
theorem round_ready {cfg : Cfg} {prog : Prog H P} {lo re a b : Nat} {w w1 : World H P}
    (hr : Ready cfg.n lo w) (hw : lo < re) (h : Round cfg prog re w w1 (some (a, b))) :
    Ready cfg.n a w1 ∧ Earliest cfg.n w1 a ∧ re ≤ a ∧ a < b ∧ b ≤ cfg.simEnd ∧
      b ≤ a + cfg.ra.get w1.minUsed := by
  generalize hwin : some (a, b) = win at h
  cases h with
  | mk k g s c =>
    have i := steps_rinv s (start_rinv k hr hw (sameWorld_refl _ w))
    obtain ⟨h1, h2, h3⟩ := nextWindow_some hwin.symm
    obtain ⟨e1, -, e3⟩ := reduce_spec i c
    have he := (e1 a).mp h1
    refine ⟨complete_ready i c (e3 a h1) he.2, he, e3 a h1, h3, ?_, ?_⟩ <;>
      simp only [h2] <;> omega

/-- **C03 (whole simulation).** Two runs of the scheduling loop from the same world, each with
    its own threads, assignments and interleavings in every round, go through the same windows
    and end in the same world as long as they have the same number of rounds; and if both have
    stopped, they had the same number of rounds. -/
theorem C03_run {cfg : Cfg} {prog : Prog H P} {w w' w1 w2 : World H P}
    {win : Option (Nat × Nat)} {wins1 wins2 : List (Nat × Nat)} {win1 win2 : Option (Nat × Nat)}
    (hr : ∀ a b, win = some (a, b) → Ready cfg.n a w ∧ Ready cfg.n a w' ∧ a < b)
    (hsame : SameWorld cfg.n w w')
    (h1 : Run cfg prog w win wins1 w1 win1) (h2 : Run cfg prog w' win wins2 w2 win2)
    (hlen : wins1.length = wins2.length ∨ (win1 = none ∧ win2 = none)) :
    wins1 = wins2 ∧ win1 = win2 ∧ SameWorld cfg.n w1 w2 := by
  induction h1 generalizing w' wins2 with
  | nil w win =>
    cases h2 with
    | nil => exact ⟨rfl, rfl, hsame⟩
    | cons r h => rcases hlen with hl | ⟨hl, -⟩ <;> simp at hl
  | @cons w wm w1 win winm win1 wins r h ih =>
    generalize hwin : some win = winx at h2
    cases h2 with
    | nil =>
      rcases hlen with hl | ⟨-, hl⟩
      · simp at hl
      · rw [← hwin] at hl; simp at hl
    | @cons _ wm2 _ winb winm2 _ wins2 r2 h2' =>
      simp at hwin; subst hwin
      obtain ⟨ha, hb, hlt⟩ := hr win.1 win.2 rfl
      obtain ⟨hs, he⟩ := C03_round ha hb hlt hsame r r2
      subst he
      have hnext : ∀ a b, winm = some (a, b) → Ready cfg.n a wm ∧ Ready cfg.n a wm2 ∧ a < b := by
        intro a b hab
        subst hab
        obtain ⟨c1, -, -, c2, -⟩ := round_ready ha hlt r
        obtain ⟨c3, -⟩ := round_ready hb hlt r2
        exact ⟨c1, c3, c2⟩
      obtain ⟨e1, e2, e3⟩ := ih hnext hs h2' (by
        rcases hlen with hl | hl
        · left; simpa using hl
        · exact .inr hl)
      exact ⟨by rw [e1], e2, e3⟩

/-- **C03 (results).** Two complete simulations of the same initial world give the same windows
    and the same final world, whatever the threads did. -/
theorem C03_same_results {cfg : Cfg} {prog : Prog H P} {start : Nat} {w0 w1 w2 : World H P}
    {wins1 wins2 : List (Nat × Nat)} (h0 : Initial cfg.n start w0)
    (h1 : Run cfg prog w0 (some (start, start + 1)) wins1 w1 none)
    (h2 : Run cfg prog w0 (some (start, start + 1)) wins2 w2 none) :
    wins1 = wins2 ∧ SameWorld cfg.n w1 w2 := by
  obtain ⟨e1, -, e2⟩ := C03_run (by
    intro a b hab
    simp at hab; obtain ⟨rfl, rfl⟩ := hab
    exact ⟨initial_ready h0, initial_ready h0, by omega⟩) (sameWorld_refl _ w0) h1 h2
    (.inr ⟨rfl, rfl⟩)
  exact ⟨e1, e2⟩

/-- **C03 (no deadlock).** In every reachable state of a round that is not complete, with at least
    one thread, some thread can take a host, or some thread is running a host: its next step is
    possible unless that host's own code panics. -/
theorem C03_no_deadlock {cfg : Cfg} {prog : Prog H P} {lo re k : Nat} {w : World H P} {g : G H P}
    (hr : Ready cfg.n lo w) (hw : lo < re) (hk : 0 < k)
    (hs : Steps cfg prog re (startRound w k) g) (hnc : ¬ Complete cfg g) :
    (∃ a g', step cfg prog re g a = some g') ∨
    (∃ (i : Nat) (th : Thread) (id : Nat), g.threads[i]? = some th ∧ th.cur = some id ∧
      lstep cfg prog re id (g.hosts id) = none) := by
  have hi := steps_rinv hs (start_rinv k hr hw (sameWorld_refl _ w))
  have hlen : g.threads.length = k := by
    clear hnc hi
    induction hs with
    | refl => simp [startRound]
    | tail a _ h ih =>
      rw [← ih]
      cases a with
      | claim i id =>
        simp only [step] at h
        split at h
        · simp at h
        split at h
        · split at h
          · simp at h; subst h; simp
          · simp at h
        · simp at h
      | act i =>
        simp only [step] at h
        split at h
        · simp at h
        split at h
        · simp at h
        split at h
        · simp at h
        · simp at h; subst h; simp
        · split at h
          · simp at h
          · simp at h; subst h; simp
  by_cases hbusy : ∃ (i : Nat) (th : Thread) (id : Nat), g.threads[i]? = some th ∧ th.cur = some id
  · obtain ⟨i, th, id, h1, h2⟩ := hbusy
    obtain ⟨hid, -, -⟩ := hi.oinv.own i th id h1 h2
    cases hl : lstep cfg prog re id (g.hosts id) with
    | none => exact .inr ⟨i, th, id, h1, h2, hl⟩
    | some x =>
      left
      obtain ⟨h', out⟩ := x
      cases out with
      | none => exact ⟨.act i, by simp only [step, h1, h2, hl]; exact ⟨_, rfl⟩⟩
      | some x =>
        obtain ⟨dst, lat, e⟩ := x
        exact ⟨.act i, by
          simp only [step, h1, h2, hl, deliver_ok hi.core hid hl]; exact ⟨_, rfl⟩⟩
  · -- all threads idle: some host has not run
    left
    have hidle : ∀ th ∈ g.threads, th.cur = none := by
      intro th hth
      obtain ⟨i, hi'⟩ := List.mem_iff_getElem?.mp hth
      cases hc : th.cur with
      | none => rfl
      | some id => exact absurd ⟨i, th, id, hi', hc⟩ hbusy
    have : ∃ id, id < cfg.n ∧ (g.hosts id).phase = .waiting := by
      apply Classical.byContradiction
      intro hno
      apply hnc
      refine ⟨fun id hid => ?_, hidle⟩
      apply Classical.byContradiction
      intro hnd
      have hnw : (g.hosts id).phase ≠ .waiting := fun h => hno ⟨id, hid, h⟩
      obtain ⟨i, th, h1, h2⟩ := hi.oinv.has id hid hnw hnd
      exact hbusy ⟨i, th, id, h1, h2⟩
    obtain ⟨id, hid, hph⟩ := this
    have h0 : 0 < g.threads.length := by omega
    obtain ⟨th, hth⟩ : ∃ th, g.threads[0]? = some th := ⟨g.threads[0], by simp [h0]⟩
    have hcur : th.cur = none := hidle th (List.mem_of_getElem? hth)
    exact ⟨.claim 0 id, by
      simp only [step, hth, hcur, hid, and_self, if_true, hph]; exact ⟨_, rfl⟩⟩

/-! ## Reachable states -/

theorem run_ready {cfg : Cfg} {prog : Prog H P} {w w' : World H P} {win : Option (Nat × Nat)}
    {wins : List (Nat × Nat)} {win' : Option (Nat × Nat)}
    (hr : ∀ a b, win = some (a, b) → Ready cfg.n a w ∧ a < b ∧ b ≤ cfg.simEnd)
    (h : Run cfg prog w win wins w' win') :
    (∀ a b, win' = some (a, b) → Ready cfg.n a w' ∧ a < b ∧ b ≤ cfg.simEnd) := by
  induction h with
  | nil => exact hr
  | @cons w wm w1 win winm win1 wins r h ih =>
    apply ih
    intro a b hab
    subst hab
    obtain ⟨ha, hlt, hle⟩ := hr win.1 win.2 rfl
    obtain ⟨c1, -, -, c2, c3, -⟩ := round_ready ha hlt r
    exact ⟨c1, c2, c3⟩

theorem reach_inv {cfg : Cfg} {prog : Prog H P} {w0 w : World H P} {start : Nat}
    {win : Nat × Nat} {g : G H P} (h0 : Initial cfg.n start w0) (hse : start < cfg.simEnd)
    (hr : Reach cfg prog w0 (start, start + 1) w win g) :
    RInv cfg prog win.1 win.2 (startHosts w) w.minUsed g ∧ Ready cfg.n win.1 w ∧
      win.1 < win.2 ∧ win.2 ≤ cfg.simEnd := by
  obtain ⟨wins, k, hrun, hst⟩ := hr
  have := run_ready (by
    intro a b hab
    simp at hab; obtain ⟨rfl, rfl⟩ := hab
    exact ⟨initial_ready h0, by omega, by omega⟩) hrun win.1 win.2 rfl
  obtain ⟨h1, h2, h3⟩ := this
  exact ⟨steps_rinv hst (start_rinv k h1 h2 (sameWorld_refl _ w)), h1, h2, h3⟩

/-! ## C04: no packet in the past -/

/-- **C04.** In every reachable state, when a host sends a packet, the delivery to the receiver's
    queue succeeds, and the packet's time is not before the end of the round, not before the
    receiver's clock and later than everything the receiver has executed. -/
theorem C04_no_packet_in_past {cfg : Cfg} {prog : Prog H P} {w0 w : World H P} {start : Nat}
    {win : Nat × Nat} {g : G H P} (h0 : Initial cfg.n start w0) (hse : start < cfg.simEnd)
    (hr : Reach cfg prog w0 (start, start + 1) w win g)
    {i id dst lat : Nat} {th : Thread} {h' : Host H P} {e : Event P}
    (hth : g.threads[i]? = some th) (hcur : th.cur = some id)
    (hs : lstep cfg prog win.2 id (g.hosts id) = some (h', some (dst, lat, e))) :
    (∃ g', step cfg prog win.2 g (.act i) = some g' ∧ e ∈ (g'.hosts dst).queue.events) ∧
    win.2 ≤ e.time ∧ (g.hosts dst).clock ≤ e.time ∧
    ∀ r ∈ (g.hosts dst).ran, r.time < e.time := by
  obtain ⟨hi, -, -, -⟩ := reach_inv h0 hse hr
  obtain ⟨hid, -, -⟩ := hi.oinv.own i th id hth hcur
  obtain ⟨-, -, -, h4⟩ := lstep_data (distinct_queue (hi.core.host id hid)) hs
  obtain ⟨hdst, hre, -⟩ := h4 dst lat e rfl
  have hd := hi.core.host dst hdst
  have hdel := deliver_ok hi.core hid hs
  refine ⟨?_, hre, ?_, ?_⟩
  · simp only [step, hth, hcur, hs, hdel]
    exact ⟨_, rfl, by simp [setHost]⟩
  · have := hd.clk; omega
  · intro r hr
    have := hd.ranTime r hr
    have := hd.last
    omega

/-- **C04 (no other panic).** In every reachable state the step of a running host can fail only
    because the executing task itself asks for something impossible: it schedules a task before
    the time of the event being executed, or sends to a host that does not exist or over a path
    of zero latency.  In particular no queue operation of the scheduler panics. -/
theorem C04_only_task_panics {cfg : Cfg} {prog : Prog H P} {w0 w : World H P} {start : Nat}
    {win : Nat × Nat} {g : G H P} (h0 : Initial cfg.n start w0) (hse : start < cfg.simEnd)
    (hr : Reach cfg prog w0 (start, start + 1) w win g)
    {i id : Nat} {th : Thread} (hth : g.threads[i]? = some th) (hcur : th.cur = some id)
    (hs : step cfg prog win.2 g (.act i) = none) :
    ∃ now c, (g.hosts id).phase = .exec now c ∧
      ((∃ t p k, c = .schedule t p k ∧ t < cfg.simEnd ∧ t < (g.hosts id).queue.lastPopped) ∨
       (∃ dst p lat k, c = .send dst p lat k ∧ (cfg.n ≤ dst ∨ lat = 0))) := by
  obtain ⟨hi, -, -, -⟩ := reach_inv h0 hse hr
  obtain ⟨hid, hnw, hnd⟩ := hi.oinv.own i th id hth hcur
  have hh := hi.core.host id hid
  have hl : lstep cfg prog win.2 id (g.hosts id) = none := by
    cases hl : lstep cfg prog win.2 id (g.hosts id) with
    | none => rfl
    | some x =>
      obtain ⟨h', out⟩ := x
      cases out with
      | none => simp [step, hth, hcur, hl] at hs
      | some x =>
        obtain ⟨dst, lat, e⟩ := x
        simp only [step, hth, hcur, hl, deliver_ok hi.core hid hl] at hs
        simp at hs
  unfold lstep at hl
  cases hph : (g.hosts id).phase with
  | waiting => exact absurd hph hnw
  | loop =>
    simp only [hph] at hl
    split at hl
    · split at hl
      · obtain ⟨out, q', hp⟩ := pop_ok (g.hosts id).queue hh.qinv (distinct_queue hh)
        rename_i t hn ht
        cases out with
        | some e => simp [hp] at hl
        | none =>
          rcases pop_spec _ _ _ hp with ⟨-, h1, -⟩ | ⟨m, h1, -⟩
          · have := (nextEventTime_spec (g.hosts id).queue).1.mpr h1
            rw [hn] at this; simp at this
          · simp at h1
      · simp at hl
    · simp at hl
  | hold e =>
    simp only [hph] at hl
    split at hl
    · split at hl
      · simp at hl
      · rename_i hd hpl
        have het := hh.heldTime e (by simp [hph])
        unfold pushLocal at hpl
        split at hpl
        · simp at hpl
        · rw [push_ok (by simp only; omega)] at hpl
          simp at hpl
    · simp at hl
  | exec now c =>
    refine ⟨now, c, rfl, ?_⟩
    simp only [hph] at hl
    cases c with
    | done st => simp [codeStep] at hl
    | schedule t p k =>
      left
      refine ⟨t, p, k, rfl, ?_⟩
      simp only [codeStep] at hl
      split at hl
      · simp at hl
      · rename_i hpl
        unfold pushLocal Queue.push at hpl
        split at hpl
        · simp at hpl
        · rename_i h1
          simp only at h1 hpl
          by_cases h2 : t ≥ (g.hosts id).queue.lastPopped
          · simp [h2] at hpl
          · omega
    | send dst p lat k =>
      right
      refine ⟨dst, p, lat, k, rfl, ?_⟩
      simp only [codeStep] at hl
      split at hl
      · simp at hl
      · split at hl
        · assumption
        · simp at hl
    | advance d k => simp only [codeStep] at hl; split at hl <;> simp at hl
    | runahead k => simp [codeStep] at hl
  | broke => simp [hph] at hl
  | done => exact absurd hph hnd

/-! ## C05: windows -/

/-- **C05 (next window).** The window announced after a round starts exactly at the earliest
    queued event of all hosts, at or after the end of the finished round; it is not empty, does
    not reach past the stop time and is no longer than the runahead. -/
theorem C05_next_window {cfg : Cfg} {prog : Prog H P} {lo re a b : Nat} {w w1 : World H P}
    (hr : Ready cfg.n lo w) (hw : lo < re) (h : Round cfg prog re w w1 (some (a, b))) :
    Earliest cfg.n w1 a ∧ re ≤ a ∧ a < b ∧ b ≤ cfg.simEnd ∧ b ≤ a + cfg.ra.get w1.minUsed :=
  (round_ready hr hw h).2

/-- **C05 (stop).** The loop stops only when no event before the stop time is left on any host. -/
theorem C05_stop {cfg : Cfg} {prog : Prog H P} {lo re : Nat} {w w1 : World H P}
    (hr : Ready cfg.n lo w) (hw : lo < re) (hra : 0 < cfg.ra.get w1.minUsed)
    (h : Round cfg prog re w w1 none) :
    ∀ id, id < cfg.n → ∀ e ∈ (w1.hosts id).queue.events, cfg.simEnd ≤ e.time := by
  generalize hwin : none = win at h
  cases h with
  | mk k g s c =>
    have i := steps_rinv s (start_rinv k hr hw (sameWorld_refl _ w))
    obtain ⟨e1, e2, -⟩ := reduce_spec i c
    intro id hid e he
    cases hm : reduceThreads g.threads with
    | none => have := e2.mp hm id hid; simp only at he; rw [this] at he; simp at he
    | some t =>
      have := ((e1 t).mp hm).2 id hid e he
      rw [hm] at hwin
      simp only [nextWindow] at hwin
      split at hwin
      · simp at hwin
      · simp only at hra
        omega

/-- **C05 (tiling).** In every run the windows are non-empty, lie before the stop time, and each
    one starts at or after the end of all earlier ones. -/
theorem C05_windows_tile {cfg : Cfg} {prog : Prog H P} {w w' : World H P}
    {win : Option (Nat × Nat)} {wins : List (Nat × Nat)} {win' : Option (Nat × Nat)}
    (hr : ∀ a b, win = some (a, b) → Ready cfg.n a w ∧ a < b ∧ b ≤ cfg.simEnd)
    (h : Run cfg prog w win wins w' win') :
    (∀ x ∈ wins, x.1 < x.2 ∧ x.2 ≤ cfg.simEnd) ∧ wins.Pairwise (fun x y => x.2 ≤ y.1) ∧
    (∀ x ∈ wins, ∀ y, win' = some y → x.2 ≤ y.1) ∧
    (∀ x ∈ wins, ∀ y, win = some y → y.1 ≤ x.1) ∧
    (∀ y z, win = some y → win' = some z → y.1 ≤ z.1) := by
  induction h with
  | nil =>
    refine ⟨by simp, by simp, by simp, by simp, ?_⟩
    intro y z h1 h2; rw [h1] at h2; simp at h2; subst h2; exact Nat.le_refl _
  | @cons w wm w1 win winm win1 wins r h ih =>
    obtain ⟨ha, hlt, hle⟩ := hr win.1 win.2 rfl
    have hnext : ∀ a b, winm = some (a, b) → Ready cfg.n a wm ∧ win.2 ≤ a ∧ a < b ∧ b ≤ cfg.simEnd := by
      intro a b hab
      subst hab
      obtain ⟨c1, -, c2, c3, c4, -⟩ := round_ready ha hlt r
      exact ⟨c1, c2, c3, c4⟩
    obtain ⟨h1, h2, h3, h4, h5⟩ := ih (fun a b hab => ⟨(hnext a b hab).1, (hnext a b hab).2.2⟩)
    -- all later windows start at or after the end of this one
    have hlater : ∀ x ∈ wins, win.2 ≤ x.1 := by
      intro x hx
      cases hm : winm with
      | none =>
        subst hm
        cases h with
        | nil => simp at hx
      | some y =>
        have := h4 x hx y hm
        have := (hnext y.1 y.2 hm).2.1
        omega
    have hfin : ∀ y, win1 = some y → win.2 ≤ y.1 := by
      intro y hy
      cases hm : winm with
      | none =>
        subst hm
        cases h with
        | nil => simp at hy
      | some z =>
        have := h5 z y hm hy
        have := (hnext z.1 z.2 hm).2.1
        omega
    refine ⟨?_, ?_, ?_, ?_, ?_⟩
    · intro x hx
      rcases List.mem_cons.mp hx with rfl | hx
      · exact ⟨hlt, hle⟩
      · exact h1 x hx
    · exact List.pairwise_cons.mpr ⟨hlater, h2⟩
    · intro x hx y hy
      rcases List.mem_cons.mp hx with rfl | hx
      · exact hfin y hy
      · exact h3 x hx y hy
    · intro x hx y hy
      simp at hy; subst hy
      rcases List.mem_cons.mp hx with rfl | hx
      · exact Nat.le_refl _
      · have := hlater x hx; omega
    · intro y z hy hz
      simp at hy; subst hy
      have := hfin z hz; omega

theorem get_pos {c : Runahead.Cfg} {mu : Option Nat} (hp : 0 < c.minPossible)
    (hm : mu ≠ some 0) : 0 < c.get mu := by
  unfold Runahead.Cfg.get
  cases mu with
  | none => simp only [Option.getD_none]; omega
  | some m =>
    have : m ≠ 0 := by intro h; exact hm (by rw [h])
    simp only [Option.getD_some]; omega

/-- The recorded latency is never zero. -/
theorem round_mu {cfg : Cfg} {prog : Prog H P} {lo re : Nat} {w w1 : World H P}
    {win : Option (Nat × Nat)} (hr : Ready cfg.n lo w) (hw : lo < re) (hm : w.minUsed ≠ some 0)
    (h : Round cfg prog re w w1 win) : w1.minUsed ≠ some 0 := by
  cases h with
  | mk k g s c =>
    have i := steps_rinv s (start_rinv k hr hw (sameWorld_refl _ w))
    intro h0
    simp only at h0
    cases hd : cfg.ra.dynamic with
    | false => rw [i.minv.static hd] at h0; exact hm h0
    | true =>
      rcases ((i.minv.dyn hd 0).mp h0).1 with h1 | ⟨id, hid, x, hx, h1⟩
      · exact hm h1
      · have := ((i.core.host id hid).sentOk x hx).2.2.1
        omega

/-- **C05 (nothing left).** When a whole run has stopped, no host has an event before the stop time
    left (the least possible latency of a graph is positive: runahead.rs:31, assertion). -/
theorem C05_nothing_left {cfg : Cfg} {prog : Prog H P} {start : Nat} {w0 w' : World H P}
    {wins : List (Nat × Nat)} (h0 : Initial cfg.n start w0) (hse : start < cfg.simEnd)
    (hra : 0 < cfg.ra.minPossible)
    (h : Run cfg prog w0 (some (start, start + 1)) wins w' none) :
    ∀ id, id < cfg.n → ∀ e ∈ (w'.hosts id).queue.events, cfg.simEnd ≤ e.time := by
  have aux : ∀ (w w' : World H P) (win : Option (Nat × Nat)) (wins : List (Nat × Nat))
      (win' : Option (Nat × Nat)), w.minUsed ≠ some 0 →
      (∀ a b, win = some (a, b) → Ready cfg.n a w ∧ a < b ∧ b ≤ cfg.simEnd) →
      (win = none → ∀ id, id < cfg.n → ∀ e ∈ (w.hosts id).queue.events, cfg.simEnd ≤ e.time) →
      Run cfg prog w win wins w' win' →
      (win' = none → ∀ id, id < cfg.n → ∀ e ∈ (w'.hosts id).queue.events, cfg.simEnd ≤ e.time) := by
    intro w w' win wins win' hmu hr hn h
    induction h with
    | nil => exact hn
    | @cons w wm w1 win winm win1 wins r h ih =>
      obtain ⟨ha, hlt, hle⟩ := hr win.1 win.2 rfl
      have hmu' := round_mu ha hlt hmu r
      apply ih hmu'
      · intro a b hab
        subst hab
        obtain ⟨c1, -, -, c2, c3, -⟩ := round_ready ha hlt r
        exact ⟨c1, c2, c3⟩
      · intro hw
        subst hw
        exact C05_stop ha hlt (get_pos hra hmu') r
  refine aux _ _ _ _ _ (by rw [h0.minUsed]; simp) ?_ (by simp) h rfl
  intro a b hab
  simp at hab; obtain ⟨rfl, rfl⟩ := hab
  exact ⟨initial_ready h0, by omega, by omega⟩

/-- **C05 (termination).** From start to stop time there are at most as many rounds as
    nanoseconds: no run of the loop is infinite. -/
theorem C05_finitely_many_rounds {cfg : Cfg} {prog : Prog H P} {w w' : World H P} {a b : Nat}
    {wins : List (Nat × Nat)} {win' : Option (Nat × Nat)}
    (hr : Ready cfg.n a w) (hab : a < b) (hb : b ≤ cfg.simEnd)
    (h : Run cfg prog w (some (a, b)) wins w' win') : wins.length ≤ cfg.simEnd - a := by
  obtain ⟨h1, h2, -, h4, -⟩ := C05_windows_tile (by
    intro x y hxy; simp at hxy; obtain ⟨rfl, rfl⟩ := hxy; exact ⟨hr, hab, hb⟩) h
  have h4' : ∀ x ∈ wins, a ≤ x.1 := fun x hx => h4 x hx (a, b) rfl
  clear h4 h hr hab hb
  induction wins generalizing a with
  | nil => simp
  | cons x xs ih =>
    rw [List.pairwise_cons] at h2
    have hx := h1 x (by simp)
    have ha := h4' x (by simp)
    have := ih (a := x.2) (fun y hy => h1 y (by simp [hy])) h2.2 (fun y hy => h2.1 y hy)
    simp only [List.length_cons]
    omega

/-! ## C06: nothing runs at or after the stop time -/

/-- **C06.** In every reachable state, every event executed so far had a time before the stop
    time, and no clock has passed it.  (A clock can *reach* the stop time, see
    `C06_clock_can_reach_stop`.) -/
theorem C06_nothing_after_stop {cfg : Cfg} {prog : Prog H P} {w0 w : World H P} {start : Nat}
    {win : Nat × Nat} {g : G H P} (h0 : Initial cfg.n start w0) (hse : start < cfg.simEnd)
    (hr : Reach cfg prog w0 (start, start + 1) w win g) (id : Nat) (hid : id < cfg.n) :
    (∀ e ∈ (g.hosts id).ran, e.time < cfg.simEnd) ∧ (g.hosts id).clock ≤ cfg.simEnd ∧
    (∀ x ∈ (g.hosts id).sent, x.2.1 < cfg.simEnd) := by
  obtain ⟨hi, -, h1, h2⟩ := reach_inv h0 hse hr
  have hh := hi.core.host id hid
  have hl := hh.last
  refine ⟨fun e he => ?_, ?_, fun x hx => (hh.sentOk x hx).2.2.2.2.2.1⟩
  · have := hh.ranTime e he; omega
  · have := hh.clk; omega

/-- **C06 (refusal).** A task scheduled at or after the stop time is refused: the caller is told so
    and the queue is unchanged; one scheduled before it, and not before the last popped event, is
    accepted and queued at exactly the requested time. -/
theorem C06_schedule {cfg : Cfg} {prog : Prog H P} {re id : Nat} {h : Host H P} {now t : Nat} {p : P}
    {k : Bool → Code H P} (hp : h.phase = .exec now (.schedule t p k)) :
    (cfg.simEnd ≤ t → ∃ h', lstep cfg prog re id h = some (h', none) ∧ h'.queue = h.queue ∧
      h'.phase = .exec now (k false)) ∧
    (t < cfg.simEnd → h.queue.lastPopped ≤ t → ∃ h', lstep cfg prog re id h = some (h', none) ∧
      h'.queue.events.Perm (⟨t, .local p h.nextId⟩ :: h.queue.events) ∧
      h'.phase = .exec now (k true)) := by
  constructor
  · intro ht
    simp only [lstep, hp, codeStep, pushLocal, ge_iff_le, if_pos ht]
    exact ⟨_, rfl, rfl, rfl⟩
  · intro ht hl
    have : ¬ cfg.simEnd ≤ t := by omega
    simp only [lstep, hp, codeStep, pushLocal, ge_iff_le, if_neg this]
    rw [push_ok (by exact hl)]
    exact ⟨_, rfl, List.Perm.refl _, rfl⟩

/-! ## C08: path latency -/

/-- **C08 (general).** Every packet sent at time `t` with path latency `L` is delivered at
    `max (t + L) (end of the round)`: never early, and late by less than the length of the
    window. -/
theorem C08_delivery_time {cfg : Cfg} {prog : Prog H P} {w0 w : World H P} {start : Nat}
    {win : Nat × Nat} {g : G H P} (h0 : Initial cfg.n start w0) (hse : start < cfg.simEnd)
    (hr : Reach cfg prog w0 (start, start + 1) w win g) (id : Nat) (hid : id < cfg.n)
    (dst t L : Nat) (e : Event P) (hx : (dst, t, L, e) ∈ (g.hosts id).sent) :
    e.time = max (t + L) win.2 ∧ t + L ≤ e.time ∧ e.time < t + L + (win.2 - win.1) ∧
    (win.2 - win.1 ≤ L → e.time = t + L) := by
  obtain ⟨hi, -, h1, h2⟩ := reach_inv h0 hse hr
  obtain ⟨a1, a2, a3, a4, a5, a6, -⟩ := (hi.core.host id hid).sentOk _ hx
  simp only at a1 a2 a3 a4 a5 a6
  refine ⟨a1, by omega, by omega, by omega⟩

/-- Static runahead: the stored latency never changes. -/
theorem run_static {cfg : Cfg} {prog : Prog H P} {w w' : World H P} {win : Option (Nat × Nat)}
    {wins : List (Nat × Nat)} {win' : Option (Nat × Nat)} (hd : cfg.ra.dynamic = false)
    (hr : ∀ a b, win = some (a, b) → Ready cfg.n a w ∧ a < b ∧ b ≤ cfg.simEnd ∧
      b ≤ a + cfg.ra.get w.minUsed)
    (h : Run cfg prog w win wins w' win') :
    w'.minUsed = w.minUsed ∧ ∀ a b, win' = some (a, b) → b ≤ a + cfg.ra.get w.minUsed := by
  induction h with
  | nil w win => exact ⟨rfl, fun a b hab => (hr a b hab).2.2.2⟩
  | @cons w wm w1 win winm win1 wins r h ih =>
    obtain ⟨ha, hlt, hle, -⟩ := hr win.1 win.2 rfl
    have hmu : wm.minUsed = w.minUsed := by
      generalize winm = wx at r
      cases r with
      | mk k g s c =>
        have i := steps_rinv s (start_rinv k ha hlt (sameWorld_refl _ w))
        exact i.minv.static hd
    have := ih (by
      intro a b hab
      subst hab
      obtain ⟨c1, -, -, c2, c3, c4⟩ := round_ready ha hlt r
      exact ⟨c1, c2, c3, c4⟩)
    rw [hmu] at this
    exact this

/-- **C08 (exact).** With static runahead no larger than the path latency, a packet sent at `t`
    over a path of latency `L` arrives at exactly `t + L`, in every run and under every
    schedule. -/
theorem C08_exact_latency {cfg : Cfg} {prog : Prog H P} {w0 w : World H P} {start : Nat}
    {win : Nat × Nat} {g : G H P} (h0 : Initial cfg.n start w0) (hse : start < cfg.simEnd)
    (hd : cfg.ra.dynamic = false) (hpos : 0 < cfg.ra.get none)
    (hr : Reach cfg prog w0 (start, start + 1) w win g) (id : Nat) (hid : id < cfg.n)
    (dst t L : Nat) (e : Event P) (hx : (dst, t, L, e) ∈ (g.hosts id).sent)
    (hL : cfg.ra.get none ≤ L) : e.time = t + L := by
  have hgen := C08_delivery_time h0 hse hr id hid dst t L e hx
  apply hgen.2.2.2
  obtain ⟨wins, k, hrun, -⟩ := hr
  have := run_static hd (by
    intro a b hab
    simp at hab; obtain ⟨rfl, rfl⟩ := hab
    exact ⟨initial_ready h0, by omega, by omega, by rw [h0.minUsed]; omega⟩) hrun
  have := this.2 win.1 win.2 rfl
  rw [h0.minUsed] at this
  omega

/-! ## C09: order and clock of one host -/

/-- **C09 (order).** In every reachable state the events a host has executed are strictly ordered
    by the deterministic event order, no identity was executed twice, and everything still queued
    comes after everything executed. -/
theorem C09_order {cfg : Cfg} {prog : Prog H P} {w0 w : World H P} {start : Nat}
    {win : Nat × Nat} {g : G H P} (h0 : Initial cfg.n start w0) (hse : start < cfg.simEnd)
    (hr : Reach cfg prog w0 (start, start + 1) w win g) (id : Nat) (hid : id < cfg.n) :
    (g.hosts id).ran.Pairwise Before ∧ DistinctIds ((g.hosts id).ran ++ (g.hosts id).queue.events) ∧
    ∀ r ∈ (g.hosts id).ran, ∀ e ∈ (g.hosts id).queue.events, Before r e := by
  obtain ⟨hi, -, -, -⟩ := reach_inv h0 hse hr
  have hh := hi.core.host id hid
  refine ⟨hh.sorted, ?_, fun r hr e he => hh.ranBefore r hr e (by simp [he])⟩
  refine List.Pairwise.sublist ?_ hh.distinct
  unfold all
  exact List.Sublist.append_left (List.sublist_append_right _ _) _

/-- **C09 (completeness of a round).** When a host has finished its round, no event before the
    end of the window is left in its queue. -/
theorem C09_window_finished {cfg : Cfg} {prog : Prog H P} {w0 w : World H P} {start : Nat}
    {win : Nat × Nat} {g : G H P} (h0 : Initial cfg.n start w0) (hse : start < cfg.simEnd)
    (hr : Reach cfg prog w0 (start, start + 1) w win g) (id : Nat) (hid : id < cfg.n)
    (hdone : (g.hosts id).phase = .done) :
    ∀ e ∈ (g.hosts id).queue.events, win.2 ≤ e.time := by
  obtain ⟨hi, -, -, -⟩ := reach_inv h0 hse hr
  exact (hi.core.host id hid).over (.inr hdone)

/-- **C09 (CPU delay).** A popped event for which the CPU model reports no delay is executed at
    once, with the clock at exactly its time; with a delay `d` it is not executed but put back at
    exactly its time plus `d` (unless that is not before the stop time). -/
theorem C09_cpu_delay {cfg : Cfg} {prog : Prog H P} {re id : Nat} {h h' : Host H P} {e : Event P}
    {out : Out P} (hp : h.phase = .hold e) (hs : lstep cfg prog re id h = some (h', out)) :
    (prog.cpuDelay id h.st e.time = 0 → h'.ran = h.ran ++ [e] ∧ h'.clock = e.time ∧
      h'.queue = h.queue ∧ h'.phase = .exec e.time (prog.run id h.st e)) ∧
    (∀ d, prog.cpuDelay id h.st e.time = d → 0 < d → h'.ran = h.ran ∧ h'.clock = h.clock ∧
      h'.st = h.st ∧
      (e.time + d < cfg.simEnd → h'.queue.events.Perm ({ e with time := e.time + d } :: h.queue.events)) ∧
      (cfg.simEnd ≤ e.time + d → h'.queue = h.queue)) := by
  simp only [lstep, hp] at hs
  split at hs
  · rename_i hd
    refine ⟨by omega, ?_⟩
    rintro d rfl -
    unfold pushLocal at hs
    split at hs
    · rename_i q hq
      simp at hs; obtain ⟨rfl, rfl⟩ := hs
      split at hq
      · rename_i hlate
        simp at hq; obtain ⟨rfl, rfl⟩ := hq
        simp only at hlate
        exact ⟨rfl, rfl, rfl, by omega, fun _ => rfl⟩
      · rename_i hlate
        simp only at hlate
        split at hq
        · rename_i q' hpush
          simp at hq; obtain ⟨rfl, rfl⟩ := hq
          have hq' : q'.events = { e with time := e.time + prog.cpuDelay id h.st e.time } ::
              h.queue.events := by
            unfold Queue.push at hpush
            split at hpush
            · simp at hpush; rw [← hpush]
            · simp at hpush
          exact ⟨rfl, rfl, rfl, fun _ => by rw [hq'], by omega⟩
        · simp at hq
    · simp at hs
  · rename_i hd
    simp at hs; obtain ⟨rfl, rfl⟩ := hs
    exact ⟨fun _ => ⟨rfl, rfl, rfl, rfl⟩, fun d h1 h2 => by omega⟩

/-- **C09 (nothing is lost).** A step of a host keeps every event it has executed, holds or has
    queued, possibly moved to a later time by the CPU model; the only exception is an event that
    the CPU model moves to or past the stop time, which is discarded. -/
theorem C09_no_event_lost {cfg : Cfg} {prog : Prog H P} {re id : Nat} {h h' : Host H P}
    {out : Out P} (hd : DistinctIds h.queue.events)
    (hs : lstep cfg prog re id h = some (h', out)) (e : Event P) (he : e ∈ all h) :
    (∃ e' ∈ all h', e'.data = e.data ∧ e.time ≤ e'.time) ∨
    (h.phase = .hold e ∧ cfg.simEnd ≤ e.time + prog.cpuDelay id h.st e.time) := by
  cases lstep_cases hs with
  | move p hp hp' heq ho hx hb hw hl =>
    subst heq; exact .inl ⟨e, by simpa [all, hp, hp'] using he, rfl, Nat.le_refl _⟩
  | finish now st hp heq ho =>
    subst heq; exact .inl ⟨e, by simpa [all, hp] using he, rfl, Nat.le_refl _⟩
  | pop x q hp ht hpop heq ho =>
    subst heq
    obtain ⟨hperm, -, -, -⟩ := pop_before hd hpop
    refine .inl ⟨e, ?_, rfl, Nat.le_refl _⟩
    simp [all, hp] at he
    rcases he with he | he
    · simp [all, he]
    · have := hperm.mem_iff.mpr he
      simp at this
      rcases this with h1 | h1 <;> simp [all, h1]
  | drop x hp hlate heq ho =>
    subst heq
    simp [all, hp] at he
    rcases he with he | rfl | he
    · exact .inl ⟨e, by simp [all, he], rfl, Nat.le_refl _⟩
    · exact .inr ⟨hp, hlate⟩
    · exact .inl ⟨e, by simp [all, he], rfl, Nat.le_refl _⟩
  | repush x q d hd hp hq hl ht heq ho =>
    subst heq
    simp [all, hp] at he
    rcases he with he | rfl | he
    · exact .inl ⟨e, by simp [all, he], rfl, Nat.le_refl _⟩
    · exact .inl ⟨{ e with time := e.time + d }, by simp [all, hq], rfl, by simp⟩
    · exact .inl ⟨e, by simp [all, hq, he], rfl, Nat.le_refl _⟩
  | start x hp hd heq ho =>
    subst heq; exact .inl ⟨e, by simpa [all, hp] using he, rfl, Nat.le_refl _⟩
  | refused now t p k hp ht heq ho =>
    subst heq; exact .inl ⟨e, by simpa [all, hp] using he, rfl, Nat.le_refl _⟩
  | push now t p k q hp ht hle hq hl heq ho =>
    subst heq
    simp [all, hp] at he
    rcases he with he | he
    · exact .inl ⟨e, by simp [all, he], rfl, Nat.le_refl _⟩
    · exact .inl ⟨e, by simp [all, hq, he], rfl, Nat.le_refl _⟩
  | send now dst lat p k hp hn hdst hlat e he' heq ho =>
    subst heq; exact .inl ⟨_, by simpa [all, hp] using he, rfl, Nat.le_refl _⟩
  | advance now d k hp hle heq ho =>
    subst heq; exact .inl ⟨e, by simpa [all, hp] using he, rfl, Nat.le_refl _⟩

end Shadow.Sim
