import Verif.NetQueue.Model

/-!
# C17: the interface's queue of sockets
-/
namespace Shadow.NetQueue

open Shadow.Base

variable {α : Type} [DecidableEq α]

/-! ### Specification -/

/-- What happened to the queue. -/
inductive Ev (α : Type) where
  | pushed (x : α) (p : Option Nat)
  | popped (x : α)
  | cleared

/-- The items (with their priorities) that wait, in the order in which they were pushed. -/
def update (w : List (α × Option Nat)) : Ev α → List (α × Option Nat)
  | .pushed x p => w ++ [(x, p)]
  | .popped x => w.filter (fun y => decide (y.1 ≠ x))
  | .cleared => []

def waiting (log : List (Ev α)) : List (α × Option Nat) := log.foldl update []

/-- Histories of a queue in which no call panicked. -/
inductive Run (k : Kind) : Queue α → List (Ev α) → Prop where
  | new : Run k (Queue.new k) []
  | push {q q' log x p} : Run k q log → q.push x p = .ok q' → Run k q' (log ++ [.pushed x p])
  | pop {q q' log x} : Run k q log → q.pop = .ok (q', some x) → Run k q' (log ++ [.popped x])
  | popNone {q q' log} : Run k q log → q.pop = .ok (q', none) → Run k q' log
  | clear {q log} : Run k q log → Run k q.clear (log ++ [.cleared])

/-- `x` is the first of those with the smallest priority. -/
def FirstSmallest (w : List (α × Option Nat)) (x : α) : Prop :=
  ∃ l1 l2 p, w = l1 ++ (x, some p) :: l2 ∧ (∀ y ∈ l1, ∃ py, y.2 = some py ∧ p < py) ∧
    (∀ y ∈ l2, ∃ py, y.2 = some py ∧ p ≤ py)

/-! ### Invariant -/

/-- The waiting items as the heap stores them. -/
def Prioritized.entry (e : Prioritized α) : α × Option Nat := (e.item, some e.priority)

structure Inv (k : Kind) (q : Queue α) (w : List (α × Option Nat)) : Prop where
  nodup : (w.map Prod.fst).Nodup
  members : q.membership.Perm (w.map Prod.fst)
  disc : match k, q.queue with
    | .firstInFirstOut, .firstInFirstOut d => d = w.map Prod.fst
    | .minPriority, .minPriority heap counter => ∃ es : List (Prioritized α), heap.Perm es ∧
        es.map Prioritized.entry = w ∧ es.Pairwise (fun a b => a.pushOrder < b.pushOrder) ∧ ∀ e ∈ es, e.pushOrder < counter
    | _, _ => False

/-- `a` leaves before `b`. -/
def Before (a b : Prioritized α) : Prop := a.priority < b.priority ∨ (a.priority = b.priority ∧ a.pushOrder < b.pushOrder)

omit [DecidableEq α] in
theorem cmp_spec (a b : Prioritized α) (h : a.pushOrder ≠ b.pushOrder) :
    (a.cmp b = .ok .gt ∧ Before a b) ∨ (a.cmp b = .ok .lt ∧ Before b a) := by
  unfold Prioritized.cmp Before
  rcases Nat.lt_trichotomy a.priority b.priority with h1 | h1 | h1
  · rw [Nat.compare_eq_lt.2 h1]; exact Or.inl ⟨rfl, Or.inl h1⟩
  · rw [Nat.compare_eq_eq.2 h1]
    rcases Nat.lt_or_gt_of_ne h with h2 | h2
    · rw [Nat.compare_eq_lt.2 h2]; exact Or.inl ⟨rfl, Or.inr ⟨h1, h2⟩⟩
    · rw [Nat.compare_eq_gt.2 h2]; exact Or.inr ⟨rfl, Or.inr ⟨h1.symm, h2⟩⟩
  · rw [Nat.compare_eq_gt.2 h1]; exact Or.inr ⟨rfl, Or.inl h1⟩

omit [DecidableEq α] in
theorem Before.trans {a b c : Prioritized α} (h : Before a b) (h' : Before b c) : Before a c := by
  unfold Before at *; omega

omit [DecidableEq α] in
theorem extract_spec (c : Prioritized α) (l : List (Prioritized α))
    (h : (c :: l).Pairwise (fun a b => a.pushOrder ≠ b.pushOrder)) :
    ∃ m rest, extract c l = .ok (m, rest) ∧ (m :: rest).Perm (c :: l) ∧ ∀ e ∈ rest, Before m e := by
  induction l generalizing c with
  | nil => exact ⟨c, [], rfl, .refl _, by simp⟩
  | cons e es ih =>
    rw [List.pairwise_cons, List.pairwise_cons] at h
    obtain ⟨h1, h2, h3⟩ := h
    unfold extract
    rcases cmp_spec c e (h1 e (List.mem_cons_self ..)) with ⟨hc, hb⟩ | ⟨hc, hb⟩
    · obtain ⟨m, rest, e1, e2, e3⟩ := ih c (List.pairwise_cons.2 ⟨fun x hx => h1 x (List.mem_cons_of_mem _ hx), h3⟩)
      refine ⟨m, e :: rest, by rw [hc]; simp [e1], ?_, ?_⟩
      · exact (List.Perm.swap _ _ _).trans ((e2.cons e).trans (List.Perm.swap _ _ _))
      · intro x hx
        rcases List.mem_cons.1 hx with rfl | hx
        · rcases List.mem_cons.1 (e2.mem_iff.2 (List.mem_cons_self ..)) with rfl | hc'
          · exact hb
          · exact (e3 _ hc').trans hb
        · exact e3 x hx
    · obtain ⟨m, rest, e1, e2, e3⟩ := ih e (List.pairwise_cons.2 ⟨h2, h3⟩)
      refine ⟨m, c :: rest, by rw [hc]; simp [e1], ?_, ?_⟩
      · exact (List.Perm.swap _ _ _).trans (e2.cons c)
      · intro x hx
        rcases List.mem_cons.1 hx with rfl | hx
        · rcases List.mem_cons.1 (e2.mem_iff.2 (List.mem_cons_self ..)) with rfl | hc'
          · exact hb
          · exact (e3 _ hc').trans hb
        · exact e3 x hx

theorem filter_out {w : List (α × Option Nat)} {l1 l2 x p} (h : w = l1 ++ (x, p) :: l2) (hn : (w.map Prod.fst).Nodup) :
    w.filter (fun y => decide (y.1 ≠ x)) = l1 ++ l2 := by
  subst h
  simp only [List.map_append, List.map_cons, List.nodup_append, List.nodup_cons, List.mem_cons] at hn
  obtain ⟨h1, ⟨h2, h3⟩, h4⟩ := hn
  rw [List.filter_append, List.filter_cons_of_neg (by simp)]
  congr 1
  · apply List.filter_eq_self.2
    intro y hy
    simpa using h4 y.1 (List.mem_map_of_mem hy) x (Or.inl rfl)
  · apply List.filter_eq_self.2
    intro y hy
    have : y.1 ≠ x := fun hh => h2 (hh ▸ List.mem_map_of_mem hy)
    simpa using this

/-- What `pop` does in a state that satisfies the invariant. -/
theorem pop_spec {k : Kind} {q : Queue α} {w : List (α × Option Nat)} (h : Inv k q w) :
    (w = [] ∧ ∃ q', q.pop = .ok (q', none) ∧ Inv k q' w) ∨
    ∃ x q', q.pop = .ok (q', some x) ∧ Inv k q' (w.filter (fun y => decide (y.1 ≠ x))) ∧
      (k = .firstInFirstOut → ∃ p l, w = (x, p) :: l) ∧ (k = .minPriority → FirstSmallest w x) := by
  obtain ⟨m, d⟩ := q
  obtain ⟨hn, hm, hd⟩ := h
  cases k with
  | firstInFirstOut =>
    cases d with
    | minPriority _ _ => exact hd.elim
    | firstInFirstOut d =>
      simp only at hd
      subst hd
      cases w with
      | nil => exact Or.inl ⟨rfl, _, rfl, ⟨hn, hm, rfl⟩⟩
      | cons y l =>
        right
        obtain ⟨x, p⟩ := y
        have hmem : x ∈ m := hm.mem_iff.2 (by simp)
        have hf : ((x, p) :: l).filter (fun y => decide (y.1 ≠ x)) = l := filter_out (l1 := []) (x := x) (p := p) (l2 := l) rfl hn
        refine ⟨x, ⟨m.erase x, .firstInFirstOut (l.map Prod.fst)⟩, ?_, ⟨?_, ?_, ?_⟩, fun _ => ⟨p, l, rfl⟩, by simp⟩
        · simp [Queue.pop, Discipline.pop, hmem]
        · rw [hf]; simpa using (List.nodup_cons.1 hn).2
        · rw [hf]
          have := hm.erase x
          simpa using this
        · rw [hf]
  | minPriority =>
    cases d with
    | firstInFirstOut _ => exact hd.elim
    | minPriority heap counter =>
      simp only at hd
      obtain ⟨es, hp, he, ho, hb⟩ := hd
      cases heap with
      | nil =>
        have : es = [] := List.nil_perm.1 hp
        subst this
        subst he
        exact Or.inl ⟨rfl, _, rfl, ⟨hn, hm, [], .refl _, rfl, .nil, by simp⟩⟩
      | cons c l =>
        right
        have hdist : (c :: l).Pairwise (fun a b => a.pushOrder ≠ b.pushOrder) := by
          refine (hp.symm.pairwise ?_ (fun h => Ne.symm h))
          exact ho.imp (fun h => Nat.ne_of_lt h)
        obtain ⟨e, rest, e1, e2, e3⟩ := extract_spec c l hdist
        have hes : (e :: rest).Perm es := e2.trans hp
        obtain ⟨l1, l2, hl⟩ := List.append_of_mem (hes.mem_iff.1 (List.mem_cons_self ..))
        have hrest : rest.Perm (l1 ++ l2) := by
          rw [hl] at hes
          exact (hes.trans List.perm_middle).cons_inv
        have hw : w = l1.map Prioritized.entry ++ (e.item, some e.priority) :: l2.map Prioritized.entry := by
          rw [← he, hl]; simp [Prioritized.entry]
        have hf := filter_out hw hn
        have hmem : e.item ∈ m := hm.mem_iff.2 (by rw [hw]; simp)
        rw [hl, List.pairwise_append, List.pairwise_cons] at ho
        obtain ⟨ho1, ⟨ho2, ho3⟩, ho4⟩ := ho
        refine ⟨e.item, ⟨m.erase e.item, .minPriority rest counter⟩, ?_, ⟨?_, ?_, ?_⟩, by simp, fun _ => ?_⟩
        · simp [Queue.pop, Discipline.pop, e1, hmem]
        · exact hn.sublist (List.Sublist.map _ List.filter_sublist)
        · rw [hf]
          have h1 := hm.erase e.item
          refine h1.trans ?_
          rw [hw] at hn ⊢
          have : (l1.map Prioritized.entry ++ (e.item, some e.priority) :: l2.map Prioritized.entry).map Prod.fst =
              (l1.map Prioritized.entry).map Prod.fst ++ e.item :: (l2.map Prioritized.entry).map Prod.fst := by simp
          rw [this] at hn ⊢
          rw [List.map_append]
          have h2 := (List.perm_middle (a := e.item) (l₁ := (l1.map Prioritized.entry).map Prod.fst)
            (l₂ := (l2.map Prioritized.entry).map Prod.fst)).erase e.item
          simpa using h2
        · simp only
          refine ⟨l1 ++ l2, hrest, by rw [hf]; simp, ?_, ?_⟩
          · rw [List.pairwise_append]
            exact ⟨ho1, ho3, fun a ha b hb => ho4 a ha b (List.mem_cons_of_mem _ hb)⟩
          · intro x hx
            apply hb
            rw [hl]
            rcases List.mem_append.1 hx with hx | hx
            · exact List.mem_append_left _ hx
            · exact List.mem_append_right _ (List.mem_cons_of_mem _ hx)
        · refine ⟨_, _, e.priority, hw, ?_, ?_⟩
          · intro y hy
            obtain ⟨z, hz, rfl⟩ := List.mem_map.1 hy
            refine ⟨z.priority, rfl, ?_⟩
            have h1 := ho4 z hz e (List.mem_cons_self ..)
            rcases e3 z (hrest.mem_iff.2 (List.mem_append_left _ hz)) with h2 | ⟨h2, h3⟩
            · exact h2
            · omega
          · intro y hy
            obtain ⟨z, hz, rfl⟩ := List.mem_map.1 hy
            refine ⟨z.priority, rfl, ?_⟩
            rcases e3 z (hrest.mem_iff.2 (List.mem_append_right _ hz)) with h2 | ⟨h2, h3⟩ <;> omega

theorem contains_iff {k : Kind} {q : Queue α} {w : List (α × Option Nat)} (h : Inv k q w) (x : α) :
    q.contains x = true ↔ x ∈ w.map Prod.fst := by
  simp only [Queue.contains, decide_eq_true_eq]
  exact h.members.mem_iff

/-- What `try_push` does in a state that satisfies the invariant. -/
theorem tryPush_spec {k : Kind} {q : Queue α} {w : List (α × Option Nat)} (h : Inv k q w) (x : α) (p : Option Nat) :
    (x ∈ w.map Prod.fst ∧ q.tryPush x p = (q, some .alreadyQueued)) ∨
    (x ∉ w.map Prod.fst ∧ k = .minPriority ∧ p = none ∧ (q.tryPush x p).2 = some .nonePriority) ∨
    (x ∉ w.map Prod.fst ∧ (k = .minPriority → p ≠ none) ∧ ∃ q', q.tryPush x p = (q', none) ∧ Inv k q' (w ++ [(x, p)])) := by
  by_cases hx : x ∈ w.map Prod.fst
  · refine Or.inl ⟨hx, ?_⟩
    unfold Queue.tryPush
    rw [if_pos ((contains_iff h x).2 hx)]
  · right
    have hc : ¬ q.contains x = true := fun hh => hx ((contains_iff h x).1 hh)
    have hnd : ((w ++ [(x, p)]).map Prod.fst).Nodup := by
      rw [List.map_append, List.nodup_append]
      refine ⟨h.nodup, by simp, ?_⟩
      intro a ha b hb
      simp at hb
      subst hb
      exact fun hh => hx (hh ▸ ha)
    have hmm : (x :: q.membership).Perm ((w ++ [(x, p)]).map Prod.fst) := by
      rw [List.map_append]
      refine (h.members.cons x).trans ?_
      exact (List.perm_append_comm (l₁ := [x]) (l₂ := w.map Prod.fst))
    unfold Queue.tryPush
    rw [if_neg hc]
    obtain ⟨m, d⟩ := q
    obtain ⟨hn, hm, hd⟩ := h
    cases k with
    | firstInFirstOut =>
      cases d with
      | minPriority _ _ => exact hd.elim
      | firstInFirstOut d =>
        simp only at hd
        subst hd
        exact Or.inr ⟨hx, by simp, _, rfl, ⟨hnd, hmm, by simp⟩⟩
    | minPriority =>
      cases d with
      | firstInFirstOut _ => exact hd.elim
      | minPriority heap counter =>
        simp only at hd
        obtain ⟨es, hp, he, ho, hb⟩ := hd
        cases p with
        | none => exact Or.inl ⟨hx, rfl, rfl, rfl⟩
        | some p =>
          refine Or.inr ⟨hx, by simp, _, rfl, ⟨hnd, hmm, ?_⟩⟩
          simp only
          refine ⟨es ++ [⟨x, p, counter⟩], ?_, ?_, ?_, ?_⟩
          · exact (hp.cons _).trans (List.perm_append_comm (l₁ := [_]) (l₂ := es))
          · rw [List.map_append, he]; rfl
          · rw [List.pairwise_append]
            refine ⟨ho, by simp, ?_⟩
            intro a ha b hb'
            simp at hb'
            subst hb'
            exact hb a ha
          · intro e he'
            rcases List.mem_append.1 he' with he' | he'
            · have := hb e he'; omega
            · simp at he'; subst he'; simp

theorem Run.inv {k : Kind} {q : Queue α} {log : List (Ev α)} (h : Run k q log) : Inv k q (waiting log) := by
  induction h with
  | new => cases k <;> exact ⟨by simp [waiting], .refl _, by simp [Queue.new, waiting]⟩
  | @push q q' log x p _ hx ih =>
    rw [waiting, List.foldl_append]
    rcases tryPush_spec ih x p with ⟨-, e⟩ | ⟨-, -, -, e⟩ | ⟨-, -, q2, e, e2⟩
    · unfold Queue.push at hx
      rw [e] at hx
      cases hx
    · unfold Queue.push at hx
      generalize q.tryPush x p = r at hx e
      obtain ⟨a, b⟩ := r
      cases e
      cases hx
    · unfold Queue.push at hx
      rw [e] at hx
      cases hx
      exact e2
  | @pop q q' log x _ hx ih =>
    rw [waiting, List.foldl_append]
    rcases pop_spec ih with ⟨-, q2, e, -⟩ | ⟨y, q2, e, e2, -⟩
    · rw [e] at hx; cases hx
    · rw [e] at hx; cases hx; exact e2
  | @popNone q q' log _ hx ih =>
    rcases pop_spec ih with ⟨-, q2, e, e2⟩ | ⟨y, q2, e, -⟩
    · rw [e] at hx; cases hx; exact e2
    · rw [e] at hx; cases hx
  | @clear q log _ ih =>
    rw [waiting, List.foldl_append]
    obtain ⟨m, d⟩ := q
    obtain ⟨hn, hm, hd⟩ := ih
    cases k <;> cases d <;> first
      | exact hd.elim
      | exact ⟨by simp [update], .refl _, by simp [Queue.clear, update]⟩

/-! ### C17 -/

/-- **C17**, round-robin: `pop` never panics and returns what waits longest. -/
theorem C17_fifo {q : Queue α} {log : List (Ev α)} (h : Run .firstInFirstOut q log) :
    ∃ q', q.pop = .ok (q', (waiting log).head?.map Prod.fst) := by
  rcases pop_spec h.inv with ⟨e, q', e1, -⟩ | ⟨x, q', e1, -, e2, -⟩
  · exact ⟨q', by rw [e1, e]; rfl⟩
  · obtain ⟨p, l, e⟩ := e2 rfl
    exact ⟨q', by rw [e1, e]; rfl⟩

/-- **C17**, priorities: `pop` never panics and returns, of those with the smallest priority, the one
    that waits longest. -/
theorem C17_priority {q : Queue α} {log : List (Ev α)} (h : Run .minPriority q log) :
    (waiting log = [] ∧ ∃ q', q.pop = .ok (q', none)) ∨
    ∃ q' x, q.pop = .ok (q', some x) ∧ FirstSmallest (waiting log) x := by
  rcases pop_spec h.inv with ⟨e, q', e1, -⟩ | ⟨x, q', e1, -, -, e2⟩
  · exact Or.inl ⟨e, q', e1⟩
  · exact Or.inr ⟨q', x, e1, e2 rfl⟩

/-- **C17**: no item waits twice, and the queue answers correctly what and how much it holds. -/
theorem C17_once {k : Kind} {q : Queue α} {log : List (Ev α)} (h : Run k q log) :
    ((waiting log).map Prod.fst).Nodup ∧ (∀ x, q.contains x = true ↔ x ∈ (waiting log).map Prod.fst) ∧
    q.len = (waiting log).length := by
  refine ⟨h.inv.nodup, contains_iff h.inv, ?_⟩
  have := h.inv.members.length_eq
  simpa [Queue.len] using this

/-- **C17**: an item is accepted exactly if it does not wait already (and has a priority where one is
    needed). -/
theorem C17_accept {k : Kind} {q : Queue α} {log : List (Ev α)} (h : Run k q log) (x : α) (p : Option Nat) :
    ((∃ q', q.push x p = .ok q') ↔ x ∉ (waiting log).map Prod.fst ∧ (k = .minPriority → p ≠ none)) ∧
    (q.tryPush x p = (q, some .alreadyQueued) ↔ x ∈ (waiting log).map Prod.fst) := by
  unfold Queue.push
  rcases tryPush_spec h.inv x p with ⟨e0, e⟩ | ⟨e0, e1, e2, e⟩ | ⟨e0, e1, q2, e, e2⟩
  · rw [e]; simp [e0]
  · generalize q.tryPush x p = r at e
    obtain ⟨a, b⟩ := r
    cases e
    simp [e0, e1, e2]
  · rw [e]; simp only [e0]
    exact ⟨⟨fun _ => ⟨by simp, e1⟩, fun _ => ⟨_, rfl⟩⟩, by simp⟩

def Ev.isPush (x : α) : Ev α → Bool
  | .pushed y _ => decide (y = x)
  | _ => false

def Ev.isPop (x : α) : Ev α → Bool
  | .popped y => decide (y = x)
  | _ => false

/-- **C17**: every accepted item leaves exactly once: it was pushed as often as it was popped, plus
    one if it still waits. -/
theorem C17_conservation {k : Kind} {q : Queue α} {log : List (Ev α)} (h : Run k q log) (hc : Ev.cleared ∉ log) (x : α) :
    log.countP (Ev.isPush x) = log.countP (Ev.isPop x) + if x ∈ (waiting log).map Prod.fst then 1 else 0 := by
  induction h with
  | new => simp [waiting]
  | @push q q' log y p hr hx ih =>
    have ih := ih (fun hh => hc (List.mem_append_left _ hh))
    have hy := ((C17_accept hr y p).1.1 ⟨q', hx⟩).1
    rw [List.countP_append, List.countP_append, waiting, List.foldl_append]
    rw [← waiting]
    by_cases hxy : y = x
    · subst hxy
      rw [if_neg hy] at ih
      simp [Ev.isPush, Ev.isPop, update, ih]
    · have hxy' : ¬ x = y := fun hh => hxy hh.symm
      simp only [Ev.isPush, Ev.isPop, List.countP_singleton, hxy, decide_false, Bool.false_eq_true, if_false, Nat.add_zero, ih,
        List.foldl_cons, List.foldl_nil, update, List.map_append, List.mem_append, List.map_cons, List.map_nil,
        List.mem_singleton, hxy', or_false]
  | @pop q q' log y hr hx ih =>
    have ih := ih (fun hh => hc (List.mem_append_left _ hh))
    rw [List.countP_append, List.countP_append, waiting, List.foldl_append]
    rw [← waiting]
    have hmem : y ∈ (waiting log).map Prod.fst := by
      rcases pop_spec hr.inv with ⟨-, q2, e, -⟩ | ⟨z, q2, e, -, e1, e2⟩
      · rw [e] at hx; cases hx
      · rw [e] at hx; cases hx
        cases k with
        | firstInFirstOut => obtain ⟨p, l, e⟩ := e1 rfl; rw [e]; simp
        | minPriority => obtain ⟨l1, l2, p, e, -⟩ := e2 rfl; rw [e]; simp
    have hfil : ∀ z, z ∈ ((waiting log).filter (fun t => decide (t.1 ≠ y))).map Prod.fst ↔ z ∈ (waiting log).map Prod.fst ∧ z ≠ y := by
      intro z
      simp only [List.mem_map, List.mem_filter, decide_eq_true_eq]
      constructor
      · rintro ⟨t, ⟨h1, h2⟩, rfl⟩; exact ⟨⟨t, h1, rfl⟩, h2⟩
      · rintro ⟨⟨t, h1, rfl⟩, h2⟩; exact ⟨t, ⟨h1, h2⟩, rfl⟩
    by_cases hxy : y = x
    · subst hxy
      rw [if_pos hmem] at ih
      have hn : ¬ y ∈ ((waiting log).filter (fun t => decide (t.1 ≠ y))).map Prod.fst := fun hh => ((hfil y).1 hh).2 rfl
      simp only [List.foldl_cons, List.foldl_nil, update, hfil]
      simp [Ev.isPush, Ev.isPop, ih]
    · have hxy' : x ≠ y := fun hh => hxy hh.symm
      have hn : x ∈ ((waiting log).filter (fun t => decide (t.1 ≠ y))).map Prod.fst ↔ x ∈ (waiting log).map Prod.fst := by
        rw [hfil]; simp [hxy']
      simp only [List.foldl_cons, List.foldl_nil, update, hfil]
      simp only [Ev.isPush, Ev.isPop, List.countP_singleton, hxy, decide_false, Bool.false_eq_true, if_false, Nat.add_zero, ih]
      by_cases hm : x ∈ (waiting log).map Prod.fst
      · rw [if_pos hm, if_pos ⟨hm, hxy'⟩]
      · rw [if_neg hm, if_neg (fun hh => hm hh.1)]
  | popNone _ _ ih => exact ih hc
  | clear => exact absurd (List.mem_append_right _ (List.mem_singleton.2 rfl)) hc

/-- `try_push` without the priority that the discipline needs: the item is refused, but from then on
    it counts as queued, so it is refused for ever and never popped. -/
theorem C17_refused_item_stays_member {q : Queue α} {log : List (Ev α)} (h : Run .minPriority q log) {x : α}
    (hx : x ∉ (waiting log).map Prod.fst) :
    ∃ q', q.tryPush x none = (q', some .nonePriority) ∧ q'.contains x = true ∧ q'.queue = q.queue ∧
      ∀ p, q'.tryPush x p = (q', some .alreadyQueued) := by
  have hc : ¬ q.contains x = true := fun hh => hx ((contains_iff h.inv x).1 hh)
  have hd := h.inv.disc
  obtain ⟨m, d⟩ := q
  cases d with
  | firstInFirstOut _ => exact hd.elim
  | minPriority heap counter =>
    refine ⟨⟨x :: m, .minPriority heap counter⟩, ?_, by simp [Queue.contains], rfl, ?_⟩
    · unfold Queue.tryPush; rw [if_neg hc]
    · intro p
      unfold Queue.tryPush
      rw [if_pos (by simp [Queue.contains])]

/-! ### Examples -/

/-- Executes pushes (`some (x, p)`) and pops (`none`) and returns what was popped. -/
def exec (q : Queue Nat) : List (Option (Nat × Nat)) → R (List (Option Nat))
  | [] => .ok []
  | some (x, p) :: rest => do
    let q ← q.push x (some p)
    exec q rest
  | none :: rest => do
    let r ← q.pop
    let l ← exec r.1 rest
    return r.2 :: l

/-- Priorities 5, 3, 3, 9: the two with priority 3 leave in push order. -/
example : exec (Queue.new .minPriority) [some (10, 5), some (11, 3), some (12, 3), none, some (13, 9), none, none, none, none] =
    .ok [some 11, some 12, some 10, some 13, none] := by decide

example : exec (Queue.new .firstInFirstOut) [some (10, 5), some (11, 3), none, some (10, 3), none, none, none] =
    .ok [some 10, some 11, some 10, none] := by decide

example : exec (Queue.new .firstInFirstOut) [some (10, 5), some (10, 3)] = .panic := by decide

/-- The hypotheses are met by a run that pushes, pops and clears. -/
example : ∃ q : Queue Nat, Run .minPriority q [.pushed 1 (some 7), .pushed 2 (some 4), .popped 2, .cleared, .pushed 2 (some 1)] :=
  ⟨_, .push (.clear (.pop (.push (.push .new rfl) rfl) rfl)) rfl⟩

end Shadow.NetQueue
