import Verif.Tcp.Seq

/-!
# C29: sequence-number ranges are circular intervals

The specification is the set of sequence numbers met when walking forward from a start around
the circle of `2^32` numbers.
-/
namespace Shadow.Tcp.SeqProps

open Shadow.Tcp

/-- The numbers visited by `n` steps from `s`. -/
def walk (s n : Nat) : List Nat := (List.range n).map (fun k => (s + k) % M)

/-- A range is well formed when both ends are 32-bit numbers. -/
def WF (r : SeqRange) : Prop := r.start < M ∧ r.end < M

instance (r : SeqRange) : Decidable (WF r) := by unfold WF; infer_instance

/-- `x` lies on the arc that starts at `r.start` and runs forward until just before `r.end`. -/
def On (r : SeqRange) (x : Nat) : Prop :=
  ∃ k, (∀ j ≤ k, (r.start + j) % M ≠ r.end) ∧ (r.start + k) % M = x

theorem walk_nodup (s n : Nat) (h : n ≤ M) : (walk s n).Nodup := by
  unfold walk
  rw [List.Nodup, List.pairwise_map]
  refine List.Pairwise.imp_of_mem ?_ List.nodup_range
  intro a b ha hb hab
  simp only [List.mem_range] at ha hb
  omega

theorem contains_iff (r : SeqRange) (x : Nat) :
    r.contains x = true ↔ (x + M - r.start % M) % M < (r.end + M - r.start % M) % M :=
  decide_eq_true_iff

theorem contains_sub (r : SeqRange) (x : Nat) :
    r.contains x = true ↔ Seq.sub x r.start < Seq.sub r.end r.start :=
  decide_eq_true_iff

/-- Membership in terms of the usual order of numbers. -/
theorem contains_ord (r : SeqRange) (x : Nat) (h : WF r) (hx : x < M) :
    r.contains x = true ↔
      (r.start ≤ x ∧ x < r.end) ∨ (r.end < r.start ∧ (r.start ≤ x ∨ x < r.end)) := by
  obtain ⟨h1, h2⟩ := h
  rw [contains_iff]
  omega

/-- Offsets from the start of a range, without the double reduction. -/
theorem contains_off (r : SeqRange) (x : Nat) (h : WF r) (hx : x < M) :
    r.contains x = true ↔
      (if r.start ≤ x then x - r.start else x + M - r.start) <
      (if r.start ≤ r.end then r.end - r.start else r.end + M - r.start) := by
  obtain ⟨h1, h2⟩ := h
  rw [contains_iff]
  split <;> split <;> omega

theorem isEmpty_iff (r : SeqRange) (h : WF r) : r.isEmpty = true ↔ r.start = r.end := by
  obtain ⟨h1, h2⟩ := h
  simp only [SeqRange.isEmpty, SeqRange.len, Seq.sub, beq_iff_eq] at *
  omega

/-- `len` is the number of forward steps from the start to the first meeting with the end. -/
theorem C29_len (r : SeqRange) (h : WF r) :
    r.len < M ∧ (r.start + r.len) % M = r.end ∧ ∀ k < r.len, (r.start + k) % M ≠ r.end := by
  obtain ⟨h1, h2⟩ := h
  simp only [SeqRange.len, Seq.sub] at *
  refine ⟨by omega, by omega, ?_⟩
  intro k hk
  omega

/-- `contains` holds exactly for the numbers on the arc. -/
theorem C29_contains (r : SeqRange) (x : Nat) (h : WF r) (hx : x < M) :
    r.contains x = true ↔ On r x := by
  rw [contains_off r x h hx]
  obtain ⟨h1, h2⟩ := h
  unfold On
  constructor
  · intro hlt
    refine ⟨if r.start ≤ x then x - r.start else x + M - r.start, ?_, ?_⟩
    · intro j hj
      revert hlt hj
      repeat' split
      all_goals intros; omega
    · split <;> omega
  · rintro ⟨k, hk, hkx⟩
    refine Nat.lt_of_not_le fun hle => ?_
    have := hk (if r.start ≤ r.end then r.end - r.start else r.end + M - r.start)
    revert this hle
    repeat' split
    all_goals intros; omega

/-- `contains` holds exactly for the numbers of the walk of `len` steps, which are `len` different
    numbers. -/
theorem C29_contains_walk (r : SeqRange) (x : Nat) (h : WF r) (hx : x < M) :
    (r.contains x = true ↔ x ∈ walk r.start r.len) ∧ (walk r.start r.len).Nodup ∧
      (walk r.start r.len).length = r.len := by
  refine ⟨?_, walk_nodup _ _ (Nat.le_of_lt (C29_len r h).1), by simp [walk]⟩
  rw [contains_iff]
  obtain ⟨h1, h2⟩ := h
  simp only [SeqRange.len, Seq.sub, walk, List.mem_map, List.mem_range]
  constructor
  · intro hlt
    exact ⟨_, hlt, by omega⟩
  · rintro ⟨k, hk, hkx⟩
    omega

/-- An empty range contains nothing and the complement of a non-empty range is the reversed
    range. -/
theorem C29_complement (s e x : Nat) (hs : s < M) (he : e < M) (hx : x < M) (hne : s ≠ e) :
    SeqRange.contains ⟨e, s⟩ x = true ↔ ¬ SeqRange.contains ⟨s, e⟩ x = true := by
  rw [contains_off _ _ ⟨he, hs⟩ hx, contains_off _ _ ⟨hs, he⟩ hx]
  simp only
  repeat' split
  all_goals omega

theorem sub_rotate (x y n : Nat) (hx : x < M) (hy : y < M) :
    Seq.sub (Seq.add x n) (Seq.add y n) = Seq.sub x y := by
  simp only [Seq.sub, Seq.add]
  have e1 : (x + n) % M = (x + n % M) % M := by omega
  have e2 : (y + n) % M = (y + n % M) % M := by omega
  rw [e1, e2]
  have hn : n % M < M := Nat.mod_lt _ (by omega)
  generalize n % M = k at hn
  have f1 : (x + k) % M = if x + k < M then x + k else x + k - M := by split <;> omega
  have f2 : (y + k) % M = if y + k < M then y + k else y + k - M := by split <;> omega
  rw [f1, f2]
  split <;> split <;> omega

/-- Membership is invariant under rotating the circle. -/
theorem C29_rotate (r : SeqRange) (x n : Nat) (h : WF r) (hx : x < M) :
    SeqRange.contains ⟨Seq.add r.start n, Seq.add r.end n⟩ (Seq.add x n) = r.contains x := by
  rw [Bool.eq_iff_iff, contains_sub, contains_sub, sub_rotate _ _ _ hx h.1, sub_rotate _ _ _ h.2 h.1]

theorem subN_one (x : Nat) (h : x < M) : Seq.subN x 1 = if x = 0 then M - 1 else x - 1 := by
  simp only [Seq.subN]
  split <;> omega

theorem subN_lt (x n : Nat) : Seq.subN x n < M := Nat.mod_lt _ (by omega)

/-- A non-empty range is determined by its numbers. -/
theorem range_ext (r r' : SeqRange) (w : WF r) (w' : WF r') (ne : r.start ≠ r.end)
    (ne' : r'.start ≠ r'.end)
    (h : ∀ x < M, (r.contains x = true ↔ r'.contains x = true)) : r = r' := by
  have h' : ∀ x < M, ((r.start ≤ x ∧ x < r.end) ∨ (r.end < r.start ∧ (r.start ≤ x ∨ x < r.end)) ↔
      (r'.start ≤ x ∧ x < r'.end) ∨ (r'.end < r'.start ∧ (r'.start ≤ x ∨ x < r'.end))) := by
    intro x hx
    rw [← contains_ord r x w hx, ← contains_ord r' x w' hx]; exact h x hx
  obtain ⟨w1, w2⟩ := w
  obtain ⟨w3, w4⟩ := w'
  have p1 := h' r.start w1
  have p2 := h' r.end w2
  have p3 := h' r'.start w3
  have p4 := h' r'.end w4
  have p5 := h' (Seq.subN r.start 1) (subN_lt _ _)
  have p6 := h' (Seq.subN r'.start 1) (subN_lt _ _)
  have p7 := h' (Seq.subN r.end 1) (subN_lt _ _)
  have p8 := h' (Seq.subN r'.end 1) (subN_lt _ _)
  rw [subN_one _ w1] at p5
  rw [subN_one _ w3] at p6
  rw [subN_one _ w2] at p7
  rw [subN_one _ w4] at p8
  clear h h'
  have hs : r.start = r'.start := by
    clear p2 p4 p7 p8
    split at p5 <;> split at p6 <;> omega
  have he : r.end = r'.end := by
    clear p1 p3 p5 p6
    split at p7 <;> split at p8 <;> omega
  cases r; cases r'; simp_all

/-- The result of the intersection of non-empty ranges is an arc of exactly the common numbers. -/
theorem inter_sound (a b : SeqRange) (ha : WF a) (hb : WF b)
    (hae : a.start ≠ a.end) (hbe : b.start ≠ b.end) (r : SeqRange)
    (h : a.intersection b = some r) :
    WF r ∧ r.start ≠ r.end ∧
      ∀ x < M, (r.contains x = true ↔ a.contains x = true ∧ b.contains x = true) := by
  have h1 : ¬ a.isEmpty = true := fun hh => hae ((isEmpty_iff a ha).1 hh)
  have h2 : ¬ b.isEmpty = true := fun hh => hbe ((isEmpty_iff b hb).1 hh)
  have ca := fun x hx => contains_ord a x ha hx
  have cb := fun x hx => contains_ord b x hb hx
  have e1 := subN_one a.end ha.2
  have e2 := subN_one b.end hb.2
  have l1 := subN_lt a.end 1
  have l2 := subN_lt b.end 1
  obtain ⟨ha1, ha2⟩ := ha
  obtain ⟨hb1, hb2⟩ := hb
  unfold SeqRange.intersection at h
  rw [if_neg h1, if_neg h2] at h
  have fa := cb a.start ha1
  have fb := ca b.start hb1
  have fae := cb _ l1
  have fbe := ca _ l2
  by_cases p1 : b.contains a.start = true
  · rw [if_pos p1] at h
    by_cases p2 : b.contains (Seq.subN a.end 1) = true
    · rw [if_pos p2] at h
      by_cases p3 : Seq.sub a.start b.start < Seq.sub a.end b.start
      · rw [if_pos p3, Option.some.injEq] at h
        subst h
        refine ⟨⟨ha1, ha2⟩, hae, fun x hx => ?_⟩
        rw [ca x hx, cb x hx]
        simp only [Seq.sub] at p3
        have := fa.1 p1
        have := fae.1 p2
        clear fa fae fb fbe ca cb
        rw [e1] at this
        split at this <;> omega
      · rw [if_neg p3] at h; cases h
    · rw [if_neg p2, Option.some.injEq] at h
      subst h
      have q1 := fa.1 p1
      have q2 := mt fae.2 p2
      have w : WF ⟨a.start, b.end⟩ := ⟨ha1, hb2⟩
      refine ⟨w, ?_, fun x hx => ?_⟩
      · simp only; omega
      · rw [contains_ord _ _ w hx, ca x hx, cb x hx]
        simp only
        clear fa fae fb fbe ca cb
        rw [e1] at q2
        split at q2 <;> omega
  · rw [if_neg p1] at h
    have q1 := mt fa.2 p1
    by_cases p2 : b.contains (Seq.subN a.end 1) = true
    · rw [if_pos p2, Option.some.injEq] at h
      subst h
      have q2 := fae.1 p2
      have w : WF ⟨b.start, a.end⟩ := ⟨hb1, ha2⟩
      rw [e1] at q2
      refine ⟨w, ?_, fun x hx => ?_⟩
      · simp only
        clear fa fae fb fbe ca cb
        split at q2 <;> omega
      · rw [contains_ord _ _ w hx, ca x hx, cb x hx]
        simp only
        clear fa fae fb fbe ca cb
        split at q2 <;> omega
    · rw [if_neg p2] at h
      have q2 := mt fae.2 p2
      by_cases p3 : (a.contains b.start && a.contains (Seq.subN b.end 1)) = true
      · rw [if_pos p3, Option.some.injEq] at h
        subst h
        rw [Bool.and_eq_true] at p3
        have q3 := fb.1 p3.1
        have q4 := fbe.1 p3.2
        refine ⟨⟨hb1, hb2⟩, hbe, fun x hx => ?_⟩
        rw [ca x hx, cb x hx]
        clear fa fae fb fbe ca cb
        rw [e1] at q2
        rw [e2] at q4
        clear e1 e2 l1 l2
        split at q2 <;> split at q4 <;> omega
      · rw [if_neg p3] at h; cases h

/-- If no range is returned then no arc consists of exactly the common numbers. -/
theorem inter_complete (a b : SeqRange) (ha : WF a) (hb : WF b)
    (hae : a.start ≠ a.end) (hbe : b.start ≠ b.end)
    (h : a.intersection b = none) (r : SeqRange) (hr : WF r) (hre : r.start ≠ r.end)
    (hall : ∀ x < M, (r.contains x = true ↔ a.contains x = true ∧ b.contains x = true)) : False := by
  have h1 : ¬ a.isEmpty = true := fun hh => hae ((isEmpty_iff a ha).1 hh)
  have h2 : ¬ b.isEmpty = true := fun hh => hbe ((isEmpty_iff b hb).1 hh)
  have ca := fun x hx => contains_ord a x ha hx
  have cb := fun x hx => contains_ord b x hb hx
  have cr := fun x hx => contains_ord r x hr hx
  have e1 := subN_one a.end ha.2
  have e2 := subN_one b.end hb.2
  have l1 := subN_lt a.end 1
  have l2 := subN_lt b.end 1
  obtain ⟨ha1, ha2⟩ := ha
  obtain ⟨hb1, hb2⟩ := hb
  obtain ⟨hr1, hr2⟩ := hr
  have all : ∀ x < M, ((r.start ≤ x ∧ x < r.end) ∨ (r.end < r.start ∧ (r.start ≤ x ∨ x < r.end)) ↔
      ((a.start ≤ x ∧ x < a.end) ∨ (a.end < a.start ∧ (a.start ≤ x ∨ x < a.end))) ∧
      ((b.start ≤ x ∧ x < b.end) ∨ (b.end < b.start ∧ (b.start ≤ x ∨ x < b.end)))) := by
    intro x hx
    rw [← cr x hx, ← ca x hx, ← cb x hx]
    exact hall x hx
  unfold SeqRange.intersection at h
  rw [if_neg h1, if_neg h2] at h
  have fa := cb a.start ha1
  have fb := ca b.start hb1
  have fae := cb _ l1
  have fbe := ca _ l2
  by_cases p1 : b.contains a.start = true
  · rw [if_pos p1] at h
    by_cases p2 : b.contains (Seq.subN a.end 1) = true
    · rw [if_pos p2] at h
      by_cases p3 : Seq.sub a.start b.start < Seq.sub a.end b.start
      · rw [if_pos p3] at h; cases h
      · simp only [Seq.sub] at p3
        have q1 := fa.1 p1
        have q2 := fae.1 p2
        rw [e1] at q2
        have q3 : ((a.start ≤ b.start ∧ b.start < a.end) ∨
            (a.end < a.start ∧ (a.start ≤ b.start ∨ b.start < a.end))) := by
          clear all hall fa fae fb fbe ca cb cr
          split at q2 <;> omega
        have a1 := (all _ ha1).2 ⟨by omega, q1⟩
        have a2 := mt (all _ ha2).1 (by omega)
        have a3 := (all _ hb1).2 ⟨q3, by omega⟩
        have a4 := mt (all _ hb2).1 (by omega)
        clear fa fae fb fbe ca cb all hall e1 e2 l1 l2 h1 h2
        split at q2 <;> omega
    · rw [if_neg p2] at h; cases h
  · rw [if_neg p1] at h
    have q1 := mt fa.2 p1
    by_cases p2 : b.contains (Seq.subN a.end 1) = true
    · rw [if_pos p2] at h; cases h
    · rw [if_neg p2] at h
      have q2 := mt fae.2 p2
      by_cases p3 : (a.contains b.start && a.contains (Seq.subN b.end 1)) = true
      · rw [if_pos p3] at h; cases h
      · have q3 : ¬ (a.contains b.start = true ∧ a.contains (Seq.subN b.end 1) = true) := by
          rw [← Bool.and_eq_true]; exact p3
        rw [fb, fbe] at q3
        have a5 := (all _ hr1).1 (by omega)
        clear fa fae fb fbe ca cb all hall
        rw [e1] at q2
        rw [e2] at q3
        clear e1 e2 l1 l2 h1 h2
        split at q2 <;> split at q3 <;> omega

/-- For two non-empty ranges the intersection is a range exactly when one (non-empty) arc
    consists of the common numbers, and it is that arc.  (Two arcs can meet in two pieces; then
    nothing is returned.) -/
theorem C29_intersection (a b : SeqRange) (ha : WF a) (hb : WF b)
    (hae : a.start ≠ a.end) (hbe : b.start ≠ b.end) (r : SeqRange) :
    a.intersection b = some r ↔
      WF r ∧ r.start ≠ r.end ∧ ∀ x < M, (On r x ↔ On a x ∧ On b x) := by
  constructor
  · intro h
    obtain ⟨w, ne, hx⟩ := inter_sound a b ha hb hae hbe r h
    refine ⟨w, ne, fun x hlt => ?_⟩
    rw [← C29_contains r x w hlt, ← C29_contains a x ha hlt, ← C29_contains b x hb hlt]
    exact hx x hlt
  · rintro ⟨w, ne, hall⟩
    have hall' : ∀ x < M, (r.contains x = true ↔ a.contains x = true ∧ b.contains x = true) := by
      intro x hlt
      rw [C29_contains r x w hlt, C29_contains a x ha hlt, C29_contains b x hb hlt]
      exact hall x hlt
    cases h : a.intersection b with
    | none => exact (inter_complete a b ha hb hae hbe h r w ne hall').elim
    | some r' =>
      obtain ⟨w', ne', hx'⟩ := inter_sound a b ha hb hae hbe r' h
      have same : ∀ x < M, (r.contains x = true ↔ r'.contains x = true) := by
        intro x hlt
        rw [hall' x hlt, hx' x hlt]
      congr 1
      exact (range_ext r r' w w' ne ne' same).symm

/-- Empty ranges: an empty range meets an equal empty range, and a non-empty range that contains
    its position; the result is the empty range itself. -/
theorem C29_intersection_empty (a b : SeqRange) (ha : WF a) (hb : WF b)
    (he : a.start = a.end) (r : SeqRange) :
    (a.intersection b = some r ↔ r = a ∧ (b = a ∨ On b a.start)) ∧
    (b.intersection a = some r ↔ r = a ∧ (b = a ∨ On b a.start)) := by
  have h1 : a.isEmpty = true := (isEmpty_iff a ha).2 he
  rw [← C29_contains b _ hb ha.1]
  unfold SeqRange.intersection
  rw [if_pos h1]
  by_cases h2 : b.isEmpty = true
  · have hbe := (isEmpty_iff b hb).1 h2
    have hn : ¬ b.contains a.start = true := by
      rw [contains_ord b _ hb ha.1]; omega
    rw [if_pos h2, if_pos h1, if_pos h2]
    by_cases hab : a = b
    · subst hab
      simp only [if_true, true_or, and_true, Option.some.injEq]
      exact ⟨eq_comm, eq_comm⟩
    · have hba : ¬ b = a := fun h => hab h.symm
      simp [hab, hba, hn]
  · rw [if_neg h2, if_neg h2, if_pos h1]
    have hba : ¬ b = a := by
      intro h; subst h; exact h2 h1
    by_cases hc : b.contains a.start = true
    · simp only [hc, if_true, Option.some.injEq, or_true, and_true]
      exact ⟨eq_comm, eq_comm⟩
    · simp [hc, hba]

/-- The intersection does not depend on the order of its arguments. -/
theorem C29_intersection_comm (a b : SeqRange) (ha : WF a) (hb : WF b) :
    a.intersection b = b.intersection a := by
  apply Option.ext
  intro r
  by_cases hae : a.start = a.end
  · rw [(C29_intersection_empty a b ha hb hae r).1, (C29_intersection_empty a b ha hb hae r).2]
  · by_cases hbe : b.start = b.end
    · rw [(C29_intersection_empty b a hb ha hbe r).1, (C29_intersection_empty b a hb ha hbe r).2]
    · rw [C29_intersection a b ha hb hae hbe r, C29_intersection b a hb ha hbe hae r]
      simp only [and_comm]

/-! Concrete cases: ranges that wrap around zero, one and two common arcs. -/
example : WF ⟨4294967290, 5⟩ ∧ SeqRange.len ⟨4294967290, 5⟩ = 11 ∧
    SeqRange.contains ⟨4294967290, 5⟩ 4294967295 = true ∧
    SeqRange.contains ⟨4294967290, 5⟩ 4 = true ∧ SeqRange.contains ⟨4294967290, 5⟩ 5 = false := by
  decide
example : SeqRange.intersection ⟨4294967290, 5⟩ ⟨2, 100⟩ = some ⟨2, 5⟩ := by decide
example : SeqRange.intersection ⟨10, 20⟩ ⟨16, 12⟩ = none ∧
    SeqRange.contains ⟨10, 20⟩ 11 = true ∧ SeqRange.contains ⟨16, 12⟩ 11 = true := by decide
example : SeqRange.intersection ⟨7, 7⟩ ⟨2, 100⟩ = some ⟨7, 7⟩ := by decide

end Shadow.Tcp.SeqProps
