import Verif.Procs.Wait

/-!
# The process table over executions
-/
namespace Shadow.Procs
open Shadow.Base

/-- Waits that are certain to be woken: for any child or a given one, of the ordinary kind, that
ended. -/
def Certain : Call → Prop
  | .wait4 pid _ o _ => (pid = -1 ∨ 0 < pid) ∧ o.all = false ∧ o.clone = false
  | .waitid which _ _ o _ => (which = 0 ∨ which = 1) ∧ o.exited = true ∧ o.all = false ∧ o.clone = false

theorem Certain.kind {c : Call} (h : Certain c) {p : Proc} (hk : KindOk c.opts p) : p.exitSignal = some 17 := by
  unfold KindOk at hk
  cases c with
  | wait4 pid st o us =>
    obtain ⟨-, h1, h2⟩ := h
    simp only [Call.opts, h1, h2, Bool.false_eq_true, false_and, false_or, true_and] at hk
    exact hk
  | waitid w i f o us =>
    obtain ⟨-, -, h1, h2⟩ := h
    simp only [Call.opts, h1, h2, Bool.false_eq_true, false_and, false_or, true_and] at hk
    exact hk

theorem Certain.group {c : Call} (h : Certain c) {me g g' : Nat} {p p' : Proc} (hid : p'.pid = p.pid)
    (hpar : p'.parent = p.parent) (hs : p'.exitSignal = p.exitSignal) (ha : Asks me g c p) : Asks me g' c p' := by
  obtain ⟨h1, h2, h3⟩ := ha
  refine ⟨by rw [hpar, h1], ?_, ?_⟩
  · cases c with
    | wait4 pid st o us =>
      have h0 : pid = -1 ∨ 0 < pid := h.1
      simp only [Named] at h2 ⊢
      rw [hid]
      omega
    | waitid w i f o us =>
      have h0 : w = 0 ∨ w = 1 := h.1
      simp only [Named] at h2 ⊢
      rw [hid]
      omega
  · unfold KindOk at h3 ⊢
    rw [hs]; exact h3

/-- The shape of the table; `d` is a process that is just being buried (0: none). -/
structure Tree (d : Nat) (s : St) : Prop where
  sorted : s.procs.Pairwise (·.pid < ·.pid)
  range : ∀ p ∈ s.procs, init < p.pid ∧ p.pid < s.next
  next : init < s.next
  parent : ∀ p ∈ s.procs, p.parent < p.pid ∧
    (p.parent = init ∨ ∃ q ∈ s.procs, q.pid = p.parent ∧ (q.zombie = none ∨ q.pid = d))
  zombie : ∀ p ∈ s.procs, p.zombie ≠ none → p.parent ≠ init ∨ p.pid = d
  owner : ∀ w ∈ s.waiters, ∃ q ∈ s.procs, q.pid = w.owner ∧ q.zombie = none
  asleep : ∀ w ∈ s.waiters, w.woken = false → Certain w.call →
    (∃ c ∈ s.procs, Asks w.owner 0 w.call c ∧ c.zombie = none) ∧
    ∀ c ∈ s.procs, Asks w.owner 0 w.call c → c.zombie = none

theorem unique {l : List Proc} (hs : l.Pairwise (·.pid < ·.pid)) {p q : Proc} (hp : p ∈ l) (hq : q ∈ l)
    (h : p.pid = q.pid) : p = q := by
  have := List.Pairwise.forall_of_forall_of_flip (R := fun a b : Proc => a.pid = b.pid → a = b)
    (l := l) (fun _ _ _ => rfl)
    (hs.imp fun h he => by omega)
    (hs.imp fun h he => by omega)
  exact this hp hq h

theorem find_iff {s : St} (hs : s.procs.Pairwise (·.pid < ·.pid)) {pid : Nat} {p : Proc} :
    s.find pid = some p ↔ p ∈ s.procs ∧ p.pid = pid := by
  unfold St.find
  constructor
  · intro h
    exact ⟨List.mem_of_find?_eq_some h, by simpa using List.find?_some h⟩
  · rintro ⟨h1, h2⟩
    cases hf : s.procs.find? (·.pid = pid) with
    | none =>
      have := List.find?_eq_none.1 hf p h1
      simp [h2] at this
    | some q =>
      have h3 : q.pid = pid := by simpa using List.find?_some hf
      rw [unique hs h1 (List.mem_of_find?_eq_some hf) (by rw [h2, h3])]

theorem running_iff {s : St} (hs : s.procs.Pairwise (·.pid < ·.pid)) {pid : Nat} {p : Proc} :
    s.running pid = some p ↔ p ∈ s.procs ∧ p.pid = pid ∧ p.zombie = none := by
  unfold St.running
  cases hf : s.find pid with
  | none =>
    simp only [reduceCtorEq, false_iff]
    rintro ⟨h1, h2, -⟩
    rw [(find_iff hs).2 ⟨h1, h2⟩] at hf; cases hf
  | some q =>
    have hq := (find_iff hs).1 hf
    simp only
    unfold Proc.running
    constructor
    · intro h
      split at h
      · rename_i hz
        cases h
        exact ⟨hq.1, hq.2, by simpa using hz⟩
      · cases h
    · rintro ⟨h1, h2, h3⟩
      have := unique hs h1 hq.1 (by rw [h2, hq.2])
      subst this
      rw [if_pos (by simp [h3])]

theorem mem_update {s : St} {pid : Nat} {f : Proc → Proc} {q : Proc} :
    q ∈ (s.update pid f).procs ↔ ∃ c ∈ s.procs, q = if c.pid = pid then f c else c := by
  simp only [St.update, List.mem_map, eq_comm]

theorem sorted_map {l : List Proc} {f : Proc → Proc} (hf : ∀ p, (f p).pid = p.pid)
    (hs : l.Pairwise (·.pid < ·.pid)) : (l.map f).Pairwise (·.pid < ·.pid) := by
  rw [List.pairwise_map]
  exact hs.imp fun h => by rw [hf, hf]; exact h

/-- Changes that leave pid, parent, state and exit signal alone. -/
theorem tree_map {d : Nat} {s s' : St} {f : Proc → Proc} (h : Tree d s) (hn : s'.next = s.next)
    (hw : s'.waiters = s.waiters) (hp : s'.procs = s.procs.map f)
    (hf : ∀ p, (f p).pid = p.pid ∧ (f p).parent = p.parent ∧ (f p).zombie = p.zombie ∧
      (f p).exitSignal = p.exitSignal) : Tree d s' := by
  have hmem : ∀ q, q ∈ s'.procs ↔ ∃ c ∈ s.procs, f c = q := by
    intro q; rw [hp, List.mem_map]
  refine ⟨?_, ?_, ?_, ?_, ?_, ?_, ?_⟩
  · rw [hp]; exact sorted_map (fun p => (hf p).1) h.sorted
  · intro q hq
    obtain ⟨c, hc, rfl⟩ := (hmem q).1 hq
    rw [(hf c).1, hn]; exact h.range c hc
  · rw [hn]; exact h.next
  · intro q hq
    obtain ⟨c, hc, rfl⟩ := (hmem q).1 hq
    rw [(hf c).1, (hf c).2.1]
    refine ⟨(h.parent c hc).1, ?_⟩
    rcases (h.parent c hc).2 with h1 | ⟨r, h1, h2, h3⟩
    · exact .inl h1
    · exact .inr ⟨f r, (hmem _).2 ⟨r, h1, rfl⟩, by rw [(hf r).1]; exact h2, by
        rw [(hf r).1, (hf r).2.2.1]; exact h3⟩
  · intro q hq hz
    obtain ⟨c, hc, rfl⟩ := (hmem q).1 hq
    rw [(hf c).2.2.1] at hz
    rw [(hf c).1, (hf c).2.1]; exact h.zombie c hc hz
  · intro w hw'
    rw [hw] at hw'
    obtain ⟨q, h1, h2, h3⟩ := h.owner w hw'
    exact ⟨f q, (hmem _).2 ⟨q, h1, rfl⟩, by rw [(hf q).1]; exact h2, by rw [(hf q).2.2.1]; exact h3⟩
  · intro w hw' hwk hc
    rw [hw] at hw'
    obtain ⟨⟨c, h1, h2, h3⟩, h4⟩ := h.asleep w hw' hwk hc
    refine ⟨⟨f c, (hmem _).2 ⟨c, h1, rfl⟩, hc.group (hf c).1 (hf c).2.1 (hf c).2.2.2 h2, by
      rw [(hf c).2.2.1]; exact h3⟩, ?_⟩
    intro q hq ha
    obtain ⟨c', hc', rfl⟩ := (hmem q).1 hq
    rw [(hf c').2.2.1]
    exact h4 c' hc' (hc.group (hf c').1.symm (hf c').2.1.symm (hf c').2.2.2.symm ha)

theorem tree_update {d : Nat} {s : St} {pid : Nat} {f : Proc → Proc} (h : Tree d s)
    (hf : ∀ p, (f p).pid = p.pid ∧ (f p).parent = p.parent ∧ (f p).zombie = p.zombie ∧
      (f p).exitSignal = p.exitSignal) : Tree d (s.update pid f) := by
  refine tree_map (f := fun p => if p.pid = pid then f p else p) h rfl rfl rfl ?_
  intro p
  split
  · exact hf p
  · exact ⟨rfl, rfl, rfl, rfl⟩

/-- A new running process. -/
theorem tree_new {s s' : St} {c : Proc} (h : Tree 0 s) (hp : s'.procs = s.procs ++ [c])
    (hw : s'.waiters = s.waiters) (hn : s'.next = s.next + 1) (hc : c.pid = s.next)
    (hz : c.zombie = none)
    (hpar : c.parent = init ∨ ∃ q ∈ s.procs, q.pid = c.parent ∧ q.zombie = none) : Tree 0 s' := by
  have hmem : ∀ q, q ∈ s'.procs ↔ q ∈ s.procs ∨ q = c := by
    intro q; rw [hp]; simp
  refine ⟨?_, ?_, ?_, ?_, ?_, ?_, ?_⟩
  · rw [hp, List.pairwise_append]
    refine ⟨h.sorted, List.pairwise_singleton _ _, ?_⟩
    intro a ha b hb
    rw [List.mem_singleton.1 hb, hc]
    exact (h.range a ha).2
  · intro q hq
    rw [hn]
    rcases (hmem q).1 hq with hq | rfl
    · have := h.range q hq; omega
    · have := h.next; omega
  · rw [hn]; have := h.next; omega
  · intro q hq
    rcases (hmem q).1 hq with hq | rfl
    · refine ⟨(h.parent q hq).1, ?_⟩
      rcases (h.parent q hq).2 with h1 | ⟨r, h1, h2⟩
      · exact .inl h1
      · exact .inr ⟨r, (hmem r).2 (.inl h1), h2⟩
    · rcases hpar with h1 | ⟨r, h1, h2, h3⟩
      · refine ⟨?_, .inl h1⟩
        rw [h1, hc]; exact h.next
      · refine ⟨?_, .inr ⟨r, (hmem r).2 (.inl h1), h2, .inl h3⟩⟩
        rw [hc, ← h2]; exact (h.range r h1).2
  · intro q hq hz'
    rcases (hmem q).1 hq with hq | rfl
    · exact h.zombie q hq hz'
    · exact absurd hz hz'
  · intro w hw'
    rw [hw] at hw'
    obtain ⟨q, h1, h2⟩ := h.owner w hw'
    exact ⟨q, (hmem q).2 (.inl h1), h2⟩
  · intro w hw' hwk hce
    rw [hw] at hw'
    obtain ⟨⟨x, h1, h2⟩, h4⟩ := h.asleep w hw' hwk hce
    refine ⟨⟨x, (hmem x).2 (.inl h1), h2⟩, ?_⟩
    intro q hq ha
    rcases (hmem q).1 hq with hq | rfl
    · exact h4 q hq ha
    · exact hz

/-- Other waiters. -/
theorem tree_waiters {s s' : St} (h : Tree 0 s) (hp : s'.procs = s.procs) (hn : s'.next = s.next)
    (howner : ∀ w ∈ s'.waiters, w ∈ s.waiters ∨ ((∃ q ∈ s.procs, q.pid = w.owner ∧ q.zombie = none) ∧
      (w.woken = false → Certain w.call →
        (∃ c ∈ s.procs, Asks w.owner 0 w.call c ∧ c.zombie = none) ∧
        ∀ c ∈ s.procs, Asks w.owner 0 w.call c → c.zombie = none))) : Tree 0 s' := by
  refine ⟨by rw [hp]; exact h.sorted, by rw [hp, hn]; exact h.range, by rw [hn]; exact h.next,
    by rw [hp]; exact h.parent, by rw [hp]; exact h.zombie, ?_, ?_⟩
  · intro w hw
    rw [hp]
    rcases howner w hw with h1 | h1
    · exact h.owner w h1
    · exact h1.1
  · intro w hw hk hc
    rw [hp]
    rcases howner w hw with h1 | h1
    · exact h.asleep w h1 hk hc
    · exact h1.2 hk hc

/-- A zombie goes away. -/
theorem tree_remove {s s' : St} {z : Proc} (h : Tree 0 s) (hz : z ∈ s.procs) (hzz : z.zombie ≠ none)
    (hp : s'.procs = s.procs.filter (·.pid ≠ z.pid)) (hn : s'.next = s.next)
    (hw : s'.waiters = s.waiters) : Tree 0 s' := by
  have hmem : ∀ q, q ∈ s'.procs ↔ q ∈ s.procs ∧ q.pid ≠ z.pid := by
    intro q; rw [hp, List.mem_filter]; simp
  have hrun : ∀ q ∈ s.procs, q.zombie = none → q ∈ s'.procs := by
    intro q hq hq'
    refine (hmem q).2 ⟨hq, fun he => ?_⟩
    have := unique h.sorted hq hz he
    subst this
    exact hzz hq'
  refine ⟨?_, ?_, ?_, ?_, ?_, ?_, ?_⟩
  · rw [hp]; exact h.sorted.filter _
  · intro q hq; rw [hn]; exact h.range q ((hmem q).1 hq).1
  · rw [hn]; exact h.next
  · intro q hq
    have hq := ((hmem q).1 hq).1
    refine ⟨(h.parent q hq).1, ?_⟩
    rcases (h.parent q hq).2 with h1 | ⟨r, h1, h2, h3⟩
    · exact .inl h1
    · rcases h3 with h3 | h3
      · exact .inr ⟨r, hrun r h1 h3, h2, .inl h3⟩
      · have := h.range r h1; omega
  · intro q hq; exact h.zombie q ((hmem q).1 hq).1
  · intro w hw'
    rw [hw] at hw'
    obtain ⟨q, h1, h2, h3⟩ := h.owner w hw'
    exact ⟨q, hrun q h1 h3, h2, h3⟩
  · intro w hw' hk hc
    rw [hw] at hw'
    obtain ⟨⟨c, h1, h2, h3⟩, h4⟩ := h.asleep w hw' hk hc
    exact ⟨⟨c, hrun c h1 h3, h2, h3⟩, fun q hq => h4 q ((hmem q).1 hq).1⟩

/-! ## Death -/

/-- Somebody will reap the zombie: its parent exists, is not Shadow, and does not ignore the exit
signal. -/
def Reapable (s : St) (p : Proc) : Prop :=
  p.parent ≠ init ∧ ∃ q ∈ s.procs, q.pid = p.parent ∧ ∀ sig, p.exitSignal = some sig → sig ∉ q.ignored

/-- The table after the death of `p` has been dealt with. -/
structure Buried (s : St) (p : Proc) (s' : St) : Prop where
  next : s'.next = s.next
  waiters : s'.waiters = s.waiters
  /-- what is in the table -/
  procs : ∀ c', c' ∈ s'.procs ↔ ∃ c ∈ s.procs,
    (c.parent = p.pid ∧ c.zombie = none ∧ c' = { c with parent := init }) ∨
    (c.parent ≠ p.pid ∧ c.pid ≠ p.pid ∧ c' = c) ∨
    (c.pid = p.pid ∧ Reapable s p ∧ c' = c)
  /-- in what order -/
  sorted : s'.procs.Pairwise (·.pid < ·.pid)

theorem reaper_spec {s : St} {p : Proc} (h : Tree p.pid s) (hp : p ∈ s.procs) :
    ∃ b, hasReaper s p = .ok b ∧ (b = true ↔ Reapable s p) := by
  unfold hasReaper Reapable
  by_cases h1 : p.parent = init
  · rw [if_pos h1]
    exact ⟨false, rfl, by simp [h1]⟩
  rw [if_neg h1]
  rcases (h.parent p hp).2 with h2 | ⟨q, hq, hqp, hqz⟩
  · exact absurd h2 h1
  have hlt := (h.parent p hp).1
  have hqz : q.zombie = none := by
    rcases hqz with hqz | hqz
    · exact hqz
    · omega
  rw [(find_iff h.sorted).2 ⟨hq, hqp⟩]
  have huq : ∀ r ∈ s.procs, r.pid = p.parent → r = q := fun r hr hrp =>
    unique h.sorted hr hq (by rw [hrp, hqp])
  cases hsig : p.exitSignal with
  | none =>
    refine ⟨true, rfl, ?_⟩
    simp only [reduceCtorEq, false_implies, implies_true, and_true, true_iff]
    exact ⟨h1, q, hq, hqp⟩
  | some sig =>
    simp only [Proc.running, hqz, Option.isNone_none, R.assert_true, R.bind_ok]
    refine ⟨_, rfl, ?_⟩
    simp only [Bool.not_eq_true', ← Bool.not_eq_true, List.contains_iff_mem]
    constructor
    · intro hn
      exact ⟨h1, q, hq, hqp, fun s hs => by cases hs; exact hn⟩
    · rintro ⟨-, r, hr, hrp, hn⟩
      have := huq r hr hrp
      subst this
      exact hn sig rfl

theorem bury_spec {s : St} {p : Proc} (h : Tree p.pid s) (hp : p ∈ s.procs) (hz : p.zombie ≠ none) :
    ∃ s' evs, bury s p = .ok (s', evs) ∧ Buried s p s' ∧
      (∀ c ∈ s.procs, ∀ sig, c.parent = p.pid → c.zombie = none → c.deathSignal = some sig →
        .signal c.pid sig ⟨sig, p.pid, 0, 0⟩ ∈ evs) ∧
      evs = (s.procs.filter fun c => c.parent = p.pid ∧ c.zombie = none).filterMap fun c =>
        c.deathSignal.map fun sig => .signal c.pid sig ⟨sig, p.pid, 0, 0⟩ := by
  obtain ⟨b, hb, hbr⟩ := reaper_spec h hp
  unfold bury
  rw [hb]
  simp only [R.bind_ok]
  have hlt := (h.parent p hp).1
  have hev : (s.procs.filter (·.parent = p.pid)).filterMap (deathEvent p.pid) =
      (s.procs.filter fun c => c.parent = p.pid ∧ c.zombie = none).filterMap fun c =>
        c.deathSignal.map fun sig => .signal c.pid sig ⟨sig, p.pid, 0, 0⟩ := by
    generalize s.procs = l
    induction l with
    | nil => rfl
    | cons a l ih =>
      rw [List.filter_cons, List.filter_cons]
      by_cases h1 : a.parent = p.pid
      · rw [if_pos (by simpa using h1), List.filterMap_cons]
        cases hd : a.deathSignal with
        | none =>
          simp only [deathEvent, hd]
          rw [ih]
          by_cases hz0 : a.zombie = none
          · rw [if_pos (by simp [h1, hz0]), List.filterMap_cons, hd]; rfl
          · rw [if_neg (by simp [hz0])]
        | some sg =>
          cases hzz : a.zombie with
          | none =>
            have hr : a.running = true := by simp [Proc.running, hzz]
            simp only [deathEvent, hd, hr, if_true]
            rw [if_pos (by simp [h1]), List.filterMap_cons, hd]
            simp only [Option.map_some]
            rw [ih]
          | some z =>
            have hr : a.running = false := by simp [Proc.running, hzz]
            simp only [deathEvent, hd, hr, Bool.false_eq_true, if_false]
            rw [if_neg (by simp), ih]
      · rw [if_neg (by simpa using h1), if_neg (by simp [h1]), ih]
  rw [hev]
  refine ⟨_, _, rfl, ⟨rfl, rfl, ?_, ?_⟩, ?_, rfl⟩
  · intro c'
    simp only [List.mem_filter, List.mem_map, Bool.not_eq_true', ← Bool.not_eq_true,
      List.contains_iff_mem, List.mem_append]
    constructor
    · rintro ⟨⟨c, hc, rfl⟩, hno⟩
      refine ⟨c, hc, ?_⟩
      by_cases h1 : c.parent = p.pid
      · left
        rw [if_pos h1] at hno ⊢
        refine ⟨h1, ?_, rfl⟩
        cases hcz : c.zombie with
        | none => rfl
        | some x =>
          refine absurd (.inl ⟨c, ⟨⟨hc, by simpa using h1⟩, by simp [hcz]⟩, rfl⟩) hno
      · right
        rw [if_neg h1] at hno ⊢
        by_cases h2 : c.pid = p.pid
        · right
          refine ⟨h2, hbr.1 ?_, rfl⟩
          cases hbb : b with
          | true => rfl
          | false =>
            rw [hbb] at hno
            exact absurd (.inr (by simp [h2])) hno
        · left; exact ⟨h1, h2, rfl⟩
    · rintro ⟨c, hc, ⟨h1, h2, rfl⟩ | ⟨h1, h2, rfl⟩ | ⟨h1, h2, rfl⟩⟩
      · refine ⟨⟨c, hc, by rw [if_pos h1]⟩, ?_⟩
        rintro (⟨a, ⟨⟨ha, -⟩, haz⟩, he⟩ | hb')
        · have := unique h.sorted ha hc he
          subst this
          simp [h2] at haz
        · have : c.pid = p.pid := by
            cases hbb : b <;> simp [hbb] at hb'
            exact hb'
          have := (h.parent c hc).1
          omega
      · refine ⟨⟨c', hc, by rw [if_neg h1]⟩, ?_⟩
        rintro (⟨a, ⟨⟨ha, hap⟩, haz⟩, he⟩ | hb')
        · have := unique h.sorted ha hc he
          subst this
          exact h1 (by simpa using hap)
        · have : c'.pid = p.pid := by
            cases hbb : b <;> simp [hbb] at hb'
            exact hb'
          exact h2 this
      · have hcp := unique h.sorted hc hp h1
        subst hcp
        refine ⟨⟨c', hc, by rw [if_neg (by omega)]⟩, ?_⟩
        rintro (⟨a, ⟨⟨ha, hap⟩, haz⟩, he⟩ | hb')
        · have := unique h.sorted ha hc he
          subst this
          have : a.parent = a.pid := by simpa using hap
          omega
        · rw [hbr.2 h2] at hb'
          simp at hb'
  · refine List.Pairwise.filter _ (sorted_map (fun q => ?_) h.sorted)
    split <;> rfl
  · intro c hc sig h1 h2 h3
    rw [List.mem_filterMap]
    refine ⟨c, List.mem_filter.2 ⟨hc, by simp [h1, h2]⟩, by simp [h3]⟩

theorem bury_tree {s s' : St} {p : Proc} (h : Tree p.pid s) (hp : p ∈ s.procs) (hz : p.zombie ≠ none)
    (hb : Buried s p s') : Tree 0 s' := by
  have hlt := (h.parent p hp).1
  have hpr := h.range p hp
  -- running processes stay, possibly with another parent
  have hstay : ∀ c ∈ s.procs, c.zombie = none → ∃ c' ∈ s'.procs, c'.pid = c.pid ∧ c'.zombie = none ∧
      (c.parent ≠ p.pid → c' = c) := by
    intro c hc hcz
    have hne : c.pid ≠ p.pid := by
      intro he
      have := unique h.sorted hc hp he
      subst this
      exact hz hcz
    by_cases h1 : c.parent = p.pid
    · exact ⟨{ c with parent := init }, (hb.procs _).2 ⟨c, hc, .inl ⟨h1, hcz, rfl⟩⟩, rfl, hcz,
        fun h => absurd h1 h⟩
    · exact ⟨c, (hb.procs _).2 ⟨c, hc, .inr (.inl ⟨h1, hne, rfl⟩)⟩, rfl, hcz, fun _ => rfl⟩
  have hpar : ∀ c ∈ s.procs, c.parent ≠ p.pid →
      c.parent = init ∨ ∃ q ∈ s'.procs, q.pid = c.parent ∧ (q.zombie = none ∨ q.pid = 0) := by
    intro c hc hne
    rcases (h.parent c hc).2 with h1 | ⟨q, h1, h2, h3⟩
    · exact .inl h1
    · rcases h3 with h3 | h3
      · obtain ⟨q', g1, g2, g3, -⟩ := hstay q h1 h3
        exact .inr ⟨q', g1, by rw [g2, h2], .inl g3⟩
      · exact absurd (by rw [← h2, h3]) hne
  refine ⟨hb.sorted, ?_, ?_, ?_, ?_, ?_, ?_⟩
  · intro c' hc'
    rw [hb.next]
    obtain ⟨c, hc, ⟨_, _, rfl⟩ | ⟨_, _, rfl⟩ | ⟨_, _, rfl⟩⟩ := (hb.procs c').1 hc'
    · exact h.range c hc
    · exact h.range c' hc
    · exact h.range c' hc
  · rw [hb.next]; exact h.next
  · intro c' hc'
    obtain ⟨c, hc, ⟨h1, h2, rfl⟩ | ⟨h1, h2, rfl⟩ | ⟨h1, h2, rfl⟩⟩ := (hb.procs c').1 hc'
    · exact ⟨(h.range c hc).1, .inl rfl⟩
    · exact ⟨(h.parent c' hc).1, hpar c' hc h1⟩
    · have := unique h.sorted hc hp h1
      subst this
      exact ⟨hlt, hpar c' hc (by omega)⟩
  · intro c' hc' hcz
    obtain ⟨c, hc, ⟨h1, h2, rfl⟩ | ⟨h1, h2, rfl⟩ | ⟨h1, h2, rfl⟩⟩ := (hb.procs c').1 hc'
    · exact absurd h2 hcz
    · rcases h.zombie c' hc hcz with h3 | h3
      · exact .inl h3
      · exact absurd h3 h2
    · have := unique h.sorted hc hp h1
      subst this
      exact .inl h2.1
  · intro w hw
    rw [hb.waiters] at hw
    obtain ⟨q, h1, h2, h3⟩ := h.owner w hw
    obtain ⟨q', g1, g2, g3, -⟩ := hstay q h1 h3
    exact ⟨q', g1, by rw [g2, h2], g3⟩
  · intro w hw hk hc
    rw [hb.waiters] at hw
    obtain ⟨o, ho1, ho2, ho3⟩ := h.owner w hw
    have hop : w.owner ≠ p.pid := by
      intro he
      have := unique h.sorted ho1 hp (by rw [ho2, he])
      subst this
      exact hz ho3
    obtain ⟨⟨c, h1, h2, h3⟩, h4⟩ := h.asleep w hw hk hc
    constructor
    · obtain ⟨c', g1, -, g3, g4⟩ := hstay c h1 h3
      have := g4 (by rw [h2.1]; exact hop)
      subst this
      exact ⟨c', g1, h2, h3⟩
    · intro c' hc' ha
      obtain ⟨c, hc0, ⟨h1, h2, rfl⟩ | ⟨h1, h2, rfl⟩ | ⟨h1, h2, rfl⟩⟩ := (hb.procs c').1 hc'
      · exact h2
      · exact h4 c' hc0 ha
      · exact h4 c' hc0 ha

theorem Tree.weaken {s : St} (h : Tree 0 s) (d : Nat) : Tree d s where
  sorted := h.sorted
  range := h.range
  next := h.next
  parent := fun p hp => ⟨(h.parent p hp).1, by
    rcases (h.parent p hp).2 with h1 | ⟨q, h1, h2, h3⟩
    · exact .inl h1
    · rcases h3 with h3 | h3
      · exact .inr ⟨q, h1, h2, .inl h3⟩
      · have := h.range q h1; omega⟩
  zombie := fun p hp hz => by
    rcases h.zombie p hp hz with h1 | h1
    · exact .inl h1
    · have := h.range p hp; omega
  owner := h.owner
  asleep := h.asleep

/-- What the parent is told about the death of `p`. -/
inductive Told (s : St) (p : Proc) (x : Exit) : List Ev → Prop
  | noSignal : p.exitSignal = none → Told s p x []
  | orphan : p.parent = init → Told s p x []
  | told {sig i} : p.exitSignal = some sig → p.parent ≠ init →
      i.signo = sig → i.pid = p.pid →
      (∀ code, x = .normal code → i.code = 1 ∧ i.status = code) →
      (∀ sg, x = .signaled sg → i.code = 2 ∧ i.status = sg) →
      Told s p x [.signal p.parent sig i, .childEvent p.parent]

theorem notify_spec {s : St} {p : Proc} (h : Tree 0 s) (hp : p ∈ s.procs) (x : Exit) :
    ∃ evs, notifyParent s p x = .ok evs ∧ Told s p x evs := by
  unfold notifyParent
  cases hsig : p.exitSignal with
  | none => exact ⟨[], rfl, .noSignal hsig⟩
  | some sig =>
    simp only
    by_cases h1 : p.parent = init
    · rw [if_pos h1]; exact ⟨[], rfl, .orphan h1⟩
    rw [if_neg h1]
    rcases (h.parent p hp).2 with h2 | ⟨q, hq, hqp, hqz⟩
    · exact absurd h2 h1
    have hqz : q.zombie = none := by
      rcases hqz with hqz | hqz
      · exact hqz
      · have := h.range q hq; omega
    rw [(find_iff h.sorted).2 ⟨hq, hqp⟩]
    simp only [Proc.running, hqz, Option.isNone_none, R.assert_true, R.bind_ok]
    refine ⟨_, rfl, ?_⟩
    rw [hqp]
    refine .told hsig h1 ?_ ?_ ?_ ?_
    · cases x <;> rfl
    · cases x <;> rfl
    · rintro c rfl; exact ⟨rfl, rfl⟩
    · rintro c rfl; exact ⟨rfl, rfl⟩

theorem mem_wakeAll_told {s : St} {p : Proc} {x : Exit} {evs} (h : Told s p x evs) {ws : List Waiter} {w : Waiter}
    (hw : w ∈ wakeAll ws evs) : ∃ w0 ∈ ws, w0.owner = w.owner ∧ w0.call = w.call ∧
      (w.woken = false → w0 = w ∧ (p.exitSignal = none ∨ p.parent = init ∨ w.owner ≠ p.parent)) := by
  cases h with
  | noSignal h => exact ⟨w, hw, rfl, rfl, fun _ => ⟨rfl, .inl h⟩⟩
  | orphan h => exact ⟨w, hw, rfl, rfl, fun _ => ⟨rfl, .inr (.inl h)⟩⟩
  | told =>
    simp only [wakeAll, wake, List.mem_map] at hw
    obtain ⟨w0, h0, rfl⟩ := hw
    refine ⟨w0, h0, ?_, ?_, ?_⟩
    · split <;> rfl
    · split <;> rfl
    · intro hk
      by_cases ho : w0.owner = p.parent
      · rw [if_pos ho] at hk; cases hk
      · rw [if_neg ho]; exact ⟨rfl, .inr (.inr ho)⟩

/-- The state between the end of the process and its burial. -/
def dying (s : St) (p : Proc) (x : Exit) (evs : List Ev) : St :=
  { s.update p.pid (fun q => { q with zombie := some x }) with
    waiters := wakeAll (s.waiters.filter (·.owner ≠ p.pid)) evs }

theorem dying_tree {s : St} {p : Proc} {x : Exit} {evs} (h : Tree 0 s) (hp : p ∈ s.procs)
    (hz : p.zombie = none) (ht : Told s p x evs) :
    Tree p.pid (dying s p x evs) ∧ { p with zombie := some x } ∈ (dying s p x evs).procs := by
  have hmem : ∀ q, q ∈ (dying s p x evs).procs ↔ ∃ c ∈ s.procs,
      q = if c.pid = p.pid then { c with zombie := some x } else c := fun q => mem_update
  have hold : ∀ c ∈ s.procs, c.pid ≠ p.pid → c ∈ (dying s p x evs).procs := fun c hc hne =>
    (hmem c).2 ⟨c, hc, by rw [if_neg hne]⟩
  have hpp : { p with zombie := some x } ∈ (dying s p x evs).procs :=
    (hmem _).2 ⟨p, hp, by rw [if_pos rfl]⟩
  have hcase : ∀ q ∈ (dying s p x evs).procs, q = { p with zombie := some x } ∨ (q ∈ s.procs ∧ q.pid ≠ p.pid) := by
    intro q hq
    obtain ⟨c, hc, rfl⟩ := (hmem q).1 hq
    by_cases h1 : c.pid = p.pid
    · have := unique h.sorted hc hp h1
      subst this
      rw [if_pos rfl]; exact .inl rfl
    · rw [if_neg h1]; exact .inr ⟨hc, h1⟩
  have hw := h.weaken p.pid
  have hparof : ∀ c ∈ s.procs, c.parent = init ∨ ∃ q ∈ (dying s p x evs).procs, q.pid = c.parent ∧
      (q.zombie = none ∨ q.pid = p.pid) := by
    intro c hc
    rcases (h.parent c hc).2 with h1 | ⟨r, h1, h2, h3⟩
    · exact .inl h1
    · by_cases hr : r.pid = p.pid
      · have := unique h.sorted h1 hp hr
        subst this
        exact .inr ⟨_, hpp, h2, .inr rfl⟩
      · rcases h3 with h3 | h3
        · exact .inr ⟨r, hold r h1 hr, h2, .inl h3⟩
        · have := h.range r h1; omega
  refine ⟨⟨?_, ?_, h.next, ?_, ?_, ?_, ?_⟩, hpp⟩
  · refine sorted_map (fun q => ?_) h.sorted
    split <;> rfl
  · intro q hq
    rcases hcase q hq with rfl | ⟨h1, h2⟩
    · exact h.range p hp
    · exact h.range q h1
  · intro q hq
    rcases hcase q hq with rfl | ⟨h1, h2⟩
    · exact ⟨(h.parent p hp).1, hparof p hp⟩
    · exact ⟨(h.parent q h1).1, hparof q h1⟩
  · intro q hq hqz
    rcases hcase q hq with rfl | ⟨h1, h2⟩
    · exact .inr rfl
    · exact hw.zombie q h1 hqz
  · intro w hwm
    obtain ⟨w0, h1, h2, -, -⟩ := mem_wakeAll_told ht hwm
    simp only [List.mem_filter, ne_eq, decide_not, Bool.not_eq_true', decide_eq_false_iff_not] at h1
    obtain ⟨q, g1, g2, g3⟩ := h.owner w0 h1.1
    exact ⟨q, hold q g1 (by rw [g2]; exact h1.2), by rw [g2, h2], g3⟩
  · intro w hwm hk hc
    obtain ⟨w0, h1, h2, h3, h4⟩ := mem_wakeAll_told ht hwm
    obtain ⟨rfl, h4⟩ := h4 hk
    simp only [List.mem_filter, ne_eq, decide_not, Bool.not_eq_true', decide_eq_false_iff_not] at h1
    obtain ⟨⟨c, g1, g2, g3⟩, g4⟩ := h.asleep w0 h1.1 hk hc
    -- the process that ends is not one that this thread waits for
    have hnot : ¬ Asks w0.owner 0 w0.call p := by
      intro ha
      have hsig := hc.kind ha.2.2
      rcases h4 with h4 | h4 | h4
      · rw [hsig] at h4; cases h4
      · obtain ⟨o, o1, o2, -⟩ := h.owner w0 h1.1
        have := h.range o o1
        have h5 := ha.1
        omega
      · exact h4 ha.1.symm
    constructor
    · refine ⟨c, hold c g1 (fun he => ?_), g2, g3⟩
      have := unique h.sorted g1 hp he
      subst this
      exact hnot g2
    · intro q hq ha
      rcases hcase q hq with rfl | ⟨k1, k2⟩
      · exact absurd (hc.group (p' := p) rfl rfl rfl ha) hnot
      · exact g4 q k1 ha

theorem die_spec {s : St} {p : Proc} (h : Tree 0 s) (hp : p ∈ s.procs) (hz : p.zombie = none) (x : Exit) :
    ∃ s' evs evs', die s p x = .ok (s', evs ++ evs') ∧ Told s p x evs ∧
      Buried (dying s p x evs) { p with zombie := some x } s' ∧ Tree 0 s' ∧
      evs' = (s.procs.filter fun c => c.parent = p.pid ∧ c.zombie = none).filterMap fun c =>
        c.deathSignal.map fun sig => .signal c.pid sig ⟨sig, p.pid, 0, 0⟩ := by
  unfold die
  have h' : Tree 0 { s with waiters := s.waiters.filter (·.owner ≠ p.pid) } := by
    refine tree_waiters h rfl rfl fun w hw => .inl ?_
    exact (List.mem_filter.1 hw).1
  obtain ⟨evs, h1, h2⟩ := notify_spec h' hp x
  simp only [h1, R.bind_ok]
  have h2' : Told s p x evs := by
    cases h2 with
    | noSignal h => exact .noSignal h
    | orphan h => exact .orphan h
    | told a b c d e f => exact .told a b c d e f
  obtain ⟨h3, h4⟩ := dying_tree h hp hz h2'
  have hbt := bury_spec (p := { p with zombie := some x }) h3 h4 (by simp)
  obtain ⟨s', evs', h5, h6, -, h8⟩ := hbt
  have h5' : bury { St.update { s with waiters := s.waiters.filter (·.owner ≠ p.pid) } p.pid
      (fun q => { q with zombie := some x }) with
        waiters := wakeAll (s.waiters.filter (·.owner ≠ p.pid)) evs }
      { p with zombie := some x } = .ok (s', evs') := h5
  refine ⟨s', evs, evs', ?_, h2', h6, bury_tree (p := { p with zombie := some x }) h3 h4 (by simp) h6, ?_⟩
  · simp only [St.update] at h5' ⊢
    rw [h5']; rfl
  · rw [h8]
    -- the children of `p` are not `p`
    have : ∀ l : List Proc, (∀ c ∈ l, c.parent < c.pid) →
        (((l.map fun c => if c.pid = p.pid then { c with zombie := some x } else c).filter
          fun c => c.parent = p.pid ∧ c.zombie = none).filterMap fun c =>
            c.deathSignal.map fun sig => (Ev.signal c.pid sig ⟨sig, p.pid, 0, 0⟩)) =
        ((l.filter fun c => c.parent = p.pid ∧ c.zombie = none).filterMap fun c =>
            c.deathSignal.map fun sig => Ev.signal c.pid sig ⟨sig, p.pid, 0, 0⟩) := by
      intro l
      induction l with
      | nil => intro _; rfl
      | cons a l ih =>
        intro hl
        have ih := ih fun c hc => hl c (List.mem_cons_of_mem _ hc)
        have ha := hl a (List.mem_cons_self ..)
        rw [List.map_cons, List.filter_cons, List.filter_cons]
        by_cases h1 : a.pid = p.pid
        · rw [if_pos h1, if_neg (by simp), if_neg (by simp; intro h; omega)]
          exact ih
        · rw [if_neg h1]
          split
          · rw [List.filterMap_cons, List.filterMap_cons, ih]
          · exact ih
    exact this s.procs fun c hc => (h.parent c hc).1

end Shadow.Procs
