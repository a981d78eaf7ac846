import Verif.Fd.Model

/-!
# C21: new file descriptors
-/
namespace Shadow.Fd

variable {D : Type}

/-! ## Specification -/

/-- The number `i` refers to an open file. -/
def Open (t : Table D) (i : Nat) : Prop := t.descs i ≠ none

instance (t : Table D) (i : Nat) : Decidable (Open t i) :=
  inferInstanceAs (Decidable (¬ t.descs i = none))

/-- `i` is the lowest number at or above `m` that is not in use. -/
def Lowest (t : Table D) (m i : Nat) : Prop :=
  m ≤ i ∧ ¬ Open t i ∧ ∀ j, m ≤ j → j < i → Open t j

/-! ## Facts about the containers -/

theorem leastGe_some {l : List Nat} {m a : Nat} (h : leastGe l m = some a) :
    a ∈ l ∧ m ≤ a ∧ ∀ b ∈ l, m ≤ b → a ≤ b := by
  unfold leastGe at h
  rw [List.min?_eq_some_iff] at h
  obtain ⟨h1, h2⟩ := h
  simp [List.mem_filter] at h1
  exact ⟨h1.1, h1.2, fun b hb hm => h2 b (by simp [hb, hm])⟩

theorem leastGe_none {l : List Nat} {m : Nat} (h : leastGe l m = none) : ∀ b ∈ l, b < m := by
  unfold leastGe at h
  rw [List.min?_eq_none_iff, List.filter_eq_nil_iff] at h
  intro b hb
  have := h b hb
  simp at this
  exact this

theorem search_some {f : Nat → Option D} {idx fuel r : Nat} (h : search f idx fuel = some r) :
    idx ≤ r ∧ r < idx + fuel ∧ f r = none ∧ ∀ j, idx ≤ j → j < r → f j ≠ none := by
  induction fuel generalizing idx with
  | zero => simp [search] at h
  | succ n ih =>
    simp only [search] at h
    cases hd : f idx with
    | none => simp [hd] at h; subst h; exact ⟨Nat.le_refl _, by omega, hd, by omega⟩
    | some d =>
      simp [hd] at h
      obtain ⟨h1, h2, h3, h4⟩ := ih h
      refine ⟨by omega, by omega, h3, ?_⟩
      intro j hj hjr
      by_cases hji : j = idx
      · subst hji; simp [hd]
      · exact h4 j (by omega) hjr

theorem search_none {f : Nat → Option D} {idx fuel : Nat} (h : search f idx fuel = none) :
    ∀ j, idx ≤ j → j < idx + fuel → f j ≠ none := by
  induction fuel generalizing idx with
  | zero => omega
  | succ n ih =>
    simp only [search] at h
    cases hd : f idx with
    | none => simp [hd] at h
    | some d =>
      simp [hd] at h
      intro j hj hjr
      by_cases hji : j = idx
      · subst hji; simp [hd]
      · exact ih h j (by omega) (by omega)

/-- `trim_tail` moves a block of numbers from `avail` to above `next`. -/
theorem trimGo_spec (l : List Nat) (n fuel : Nat) :
    (trimGo l n fuel).2 ≤ n ∧
    (∀ x, x ∈ (trimGo l n fuel).1 ↔ x ∈ l ∧ ¬ ((trimGo l n fuel).2 ≤ x ∧ x < n)) ∧
    (∀ x, (trimGo l n fuel).2 ≤ x → x < n → x ∈ l) := by
  induction fuel generalizing l n with
  | zero => simp only [trimGo]; exact ⟨Nat.le_refl _, fun x => ⟨fun h => ⟨h, by omega⟩, fun h => h.1⟩, by omega⟩
  | succ k ih =>
    simp only [trimGo]
    split
    · rename_i m hm
      split
      · rename_i hmn
        obtain ⟨h1, h2, h3⟩ := ih (l.filter (· ≠ m)) (n - 1)
        rw [List.max?_eq_some_iff] at hm
        refine ⟨by omega, ?_, ?_⟩
        · intro x
          rw [h2 x]
          simp only [List.mem_filter, decide_eq_true_eq]
          constructor
          · rintro ⟨⟨a, b⟩, c⟩
            refine ⟨a, fun d => ?_⟩
            have : x ≠ n - 1 := by omega
            omega
          · rintro ⟨a, b⟩
            refine ⟨⟨a, fun hx => ?_⟩, by omega⟩
            subst hx
            apply b
            omega
        · intro x hx hxn
          by_cases hxm : x = m
          · subst hxm; exact hm.1
          · have := h3 x hx (by omega)
            simp [List.mem_filter] at this
            exact this.1
      · exact ⟨Nat.le_refl _, fun x => ⟨fun h => ⟨h, by omega⟩, fun h => h.1⟩, by omega⟩
    · exact ⟨Nat.le_refl _, fun x => ⟨fun h => ⟨h, by omega⟩, fun h => h.1⟩, by omega⟩

theorem length_filter_ne_lt {l : List Nat} {m : Nat} (h : m ∈ l) :
    (l.filter (· ≠ m)).length < l.length := by
  induction l with
  | nil => simp at h
  | cons a l ih =>
    by_cases ha : a = m
    · subst ha
      simp only [List.filter_cons, ne_eq, not_true, decide_false, Bool.false_eq_true, if_false,
        List.length_cons]
      exact Nat.lt_succ_of_le (List.length_filter_le _ _)
    · have : m ∈ l := by
        rcases List.mem_cons.mp h with h | h
        · exact absurd h.symm ha
        · exact h
      have := ih this
      simp only [List.filter_cons, ne_eq, ha, not_false_iff, decide_true, if_true, List.length_cons]
      simp only [ne_eq] at this
      omega

/-- With enough fuel nothing adjacent to `next` is left. -/
theorem trimGo_done (l : List Nat) (n fuel : Nat) (hf : l.length ≤ fuel) (hl : ∀ x ∈ l, x < n) :
    ∀ x ∈ (trimGo l n fuel).1, x + 1 ≠ (trimGo l n fuel).2 := by
  induction fuel generalizing l n with
  | zero =>
    have : l = [] := by simpa using hf
    subst this; simp [trimGo]
  | succ k ih =>
    simp only [trimGo]
    split
    · rename_i m hm
      rw [List.max?_eq_some_iff] at hm
      split
      · rename_i hmn
        apply ih
        · have := length_filter_ne_lt hm.1; omega
        · intro x hx
          simp [List.mem_filter] at hx
          have := hm.2 x hx.1
          have := hx.2
          omega
      · rename_i hmn
        intro x hx
        have := hm.2 x hx
        have := hl x hx
        have := hl m hm.1
        simp only
        omega
    · rename_i hm
      rw [List.max?_eq_none_iff] at hm
      subst hm; simp

/-! ## Invariants -/

/-- Holds after any history: an available number is not in use; every number below `next` is in
    use or available; everything fits. -/
structure Inv (t : Table D) : Prop where
  free : ∀ i ∈ t.avail, t.descs i = none
  below : ∀ i, i < t.next → t.descs i ≠ none ∨ i ∈ t.avail
  nextLe : t.next ≤ fdMax + 1
  availLe : ∀ i ∈ t.avail, i ≤ fdMax

/-- Holds after tidy histories only: the documented meaning of `available_indices`. -/
structure Tidy (t : Table D) : Prop where
  availBelow : ∀ i ∈ t.avail, i < t.next
  top : t.next = 0 ∨ t.descs (t.next - 1) ≠ none
  above : ∀ i, t.next ≤ i → t.descs i = none

theorem inv_new : Inv (Table.new : Table D) :=
  ⟨by simp [Table.new], by simp [Table.new], by simp [Table.new], by simp [Table.new]⟩

theorem tidy_new : Tidy (Table.new : Table D) :=
  ⟨by simp [Table.new], by simp [Table.new], by simp [Table.new]⟩

/-- What a successful `add` does. -/
theorem add_cases {t t' : Table D} {d : D} {m fd : Nat} (h : t.add d m = .ok fd t') :
    t'.descs = put t.descs fd (some d) ∧ t.descs fd = none ∧
    ((leastGe t.avail m = some fd ∧ t'.avail = t.avail.filter (· ≠ fd) ∧ t'.next = t.next) ∨
     (leastGe t.avail m = none ∧ t'.avail = t.avail ∧ max t.next m ≤ fd ∧ fd ≤ fdMax ∧
       (∀ j, max t.next m ≤ j → j < fd → t.descs j ≠ none) ∧
       t'.next = if m ≤ t.next then fd + 1 else t.next)) := by
  unfold Table.add at h
  split at h
  · rename_i idx hl
    simp only [store] at h
    split at h
    · simp at h
    · rename_i hd
      simp at h; obtain ⟨rfl, rfl⟩ := h
      exact ⟨rfl, hd, .inl ⟨hl, by simp, rfl⟩⟩
  · rename_i hl
    simp only at h
    split at h
    · simp at h
    · rename_i hst
      split at h
      · simp at h
      · rename_i idx hs
        obtain ⟨h1, h2, h3, h4⟩ := search_some hs
        simp only [store, h3] at h
        simp at h; obtain ⟨rfl, rfl⟩ := h
        refine ⟨rfl, h3, .inr ⟨hl, rfl, h1, by omega, h4, ?_⟩⟩
        have : max t.next m = t.next ↔ m ≤ t.next := by omega
        simp only [this]

theorem add_inv {t t' : Table D} {d : D} {m fd : Nat} (hi : Inv t) (h : t.add d m = .ok fd t') :
    Inv t' := by
  obtain ⟨hd, hf, hc⟩ := add_cases h
  rcases hc with ⟨hl, ha, hn⟩ | ⟨hl, ha, hge, hle, hall, hn⟩
  · obtain ⟨l1, l2, l3⟩ := leastGe_some hl
    refine ⟨?_, ?_, by rw [hn]; exact hi.nextLe, ?_⟩
    · intro i hi'
      rw [ha] at hi'; simp [List.mem_filter] at hi'
      rw [hd, put, if_neg hi'.2]
      exact hi.free i hi'.1
    · intro i hlt
      rw [hn] at hlt
      rw [hd, ha, put]
      by_cases hif : i = fd
      · left; simp [hif]
      · rw [if_neg hif]
        rcases hi.below i hlt with h1 | h1
        · exact .inl h1
        · right; simp [List.mem_filter, h1, hif]
    · intro i hi'
      rw [ha] at hi'; simp [List.mem_filter] at hi'
      exact hi.availLe i hi'.1
  · refine ⟨?_, ?_, ?_, by rw [ha]; exact hi.availLe⟩
    · intro i hi'
      rw [ha] at hi'
      rw [hd, put]
      have : i ≠ fd := by
        intro h1
        have := leastGe_none hl i hi'
        omega
      rw [if_neg this]; exact hi.free i hi'
    · intro i hlt
      rw [hd, ha, put]
      by_cases hif : i = fd
      · left; simp [hif]
      · rw [if_neg hif]
        by_cases hin : i < t.next
        · exact hi.below i hin
        · left
          rw [hn] at hlt
          split at hlt
          · apply hall i <;> omega
          · omega
    · rw [hn]; split
      · omega
      · exact hi.nextLe

theorem set_inv {t : Table D} {i : Nat} {d : D} (hi : Inv t) : Inv (t.set i d).2 := by
  refine ⟨?_, ?_, hi.nextLe, ?_⟩
  · intro j hj
    simp [Table.set, List.mem_filter] at hj
    simp only [Table.set, put, if_neg hj.2]
    exact hi.free j hj.1
  · intro j hj
    simp only [Table.set, put] at hj ⊢
    by_cases hji : j = i
    · left; simp [hji]
    · rw [if_neg hji]
      rcases hi.below j hj with h1 | h1
      · exact .inl h1
      · right; simp [List.mem_filter, h1, hji]
  · intro j hj
    simp [Table.set, List.mem_filter] at hj
    exact hi.availLe j hj.1

/-- The table before trimming in `deregister_descriptor`. -/
theorem close_mem (t : Table D) (i x : Nat) :
    x ∈ (if i ∈ t.avail then t.avail else i :: t.avail) ↔ x = i ∨ x ∈ t.avail := by
  split
  · rename_i h
    constructor
    · exact .inr
    · rintro (rfl | h1)
      · exact h
      · exact h1
  · simp

theorem close_inv {t : Table D} {i : Nat} (hi : Inv t) (hf : i ≤ fdMax) :
    Inv (t.deregister i).2 := by
  simp only [Table.deregister, Table.trimTail]
  generalize hl : (if i ∈ t.avail then t.avail else i :: t.avail) = l
  have hm : ∀ x, x ∈ l ↔ x = i ∨ x ∈ t.avail := by intro x; rw [← hl]; exact close_mem t i x
  obtain ⟨h1, h2, h3⟩ := trimGo_spec l t.next l.length
  refine ⟨?_, ?_, ?_, ?_⟩
  · intro x hx
    simp only at hx ⊢
    rw [h2 x, hm x] at hx
    simp only [put]
    split
    · rfl
    · rename_i hne
      exact hi.free x (by rcases hx.1 with h4 | h4; exact absurd h4 hne; exact h4)
  · intro x hx
    simp only at hx ⊢
    rw [h2 x, hm x]
    by_cases hxi : x = i
    · right; exact ⟨.inl hxi, by omega⟩
    · simp only [put, if_neg hxi]
      rcases hi.below x (by omega) with h4 | h4
      · exact .inl h4
      · right; exact ⟨.inr h4, by omega⟩
  · have := hi.nextLe; simp only; omega
  · intro x hx
    simp only at hx
    rw [h2 x, hm x] at hx
    rcases hx.1 with h4 | h4
    · omega
    · exact hi.availLe x h4

theorem close_descs (t : Table D) (i : Nat) : (t.deregister i).2.descs = put t.descs i none := rfl

theorem removeGo_inv (l : List Nat) {t : Table D} (hi : Inv t) (hl : ∀ i ∈ l, i ≤ fdMax) :
    Inv (l.foldl (fun t i => (t.deregister i).2) t) := by
  induction l generalizing t with
  | nil => exact hi
  | cons a l ih =>
    exact ih (close_inv hi (hl a (by simp))) (fun i h => hl i (by simp [h]))

theorem removeGo_descs (l : List Nat) (t : Table D) (j : Nat) :
    (l.foldl (fun t i => (t.deregister i).2) t).descs j = if j ∈ l then none else t.descs j := by
  induction l generalizing t with
  | nil => simp
  | cons a l ih =>
    simp only [List.foldl_cons, ih, close_descs, put, List.mem_cons]
    by_cases h1 : j ∈ l
    · simp [h1]
    · by_cases h2 : j = a <;> simp [h1, h2]

/-- Descriptor numbers are at most `FD_MAX` (`DescriptorHandle::new`). -/
def Op.Valid : Op D → Prop
  | .add _ m => m ≤ fdMax
  | .set i _ => i ≤ fdMax
  | .close i => i ≤ fdMax
  | .removeAll => True
  | .removeRange lo n => lo + n ≤ fdMax + 1

instance (op : Op D) : Decidable op.Valid :=
  match op with
  | .add _ m => inferInstanceAs (Decidable (m ≤ fdMax))
  | .set i _ => inferInstanceAs (Decidable (i ≤ fdMax))
  | .close i => inferInstanceAs (Decidable (i ≤ fdMax))
  | .removeAll => inferInstanceAs (Decidable True)
  | .removeRange lo n => inferInstanceAs (Decidable (lo + n ≤ fdMax + 1))

theorem apply_inv {t : Table D} {op : Op D} (hi : Inv t) (hv : op.Valid) : Inv (t.apply op) := by
  cases op with
  | add d m =>
    simp only [Table.apply]
    cases h : t.add d m with
    | ok fd t' => exact add_inv hi h
    | err => exact hi
    | panic => exact hi
  | set i d => exact set_inv hi
  | close i => exact close_inv hi hv
  | removeAll => exact inv_new
  | removeRange lo n =>
    refine removeGo_inv _ hi ?_
    intro i h
    simp [List.mem_filter, List.mem_range'] at h
    obtain ⟨⟨k, h1, h2⟩, -⟩ := h
    simp only [Op.Valid] at hv
    omega

theorem run_inv {t : Table D} {ops : List (Op D)} (hi : Inv t) (hv : ∀ o ∈ ops, o.Valid) :
    Inv (t.run ops) := by
  induction ops generalizing t with
  | nil => exact hi
  | cons o os ih =>
    exact ih (apply_inv hi (hv o (by simp))) (fun o' h => hv o' (by simp [h]))

/-! ## C21, unconditional part -/

/-- **C21 (fresh).** After any history, a successful `add` returns a number at or above the
    requested minimum and at most `FD_MAX` that was not in use, now refers to the new file, and
    nothing else changes; the table never panics. -/
theorem C21_add_fresh (ops : List (Op D)) (hv : ∀ o ∈ ops, o.Valid) (d : D) (m fd : Nat)
    (t' : Table D) (h : (Table.new.run ops).add d m = .ok fd t') :
    m ≤ fd ∧ fd ≤ fdMax ∧ ¬ Open (Table.new.run ops) fd ∧ t'.descs fd = some d ∧
    ∀ j, j ≠ fd → t'.descs j = (Table.new.run ops).descs j := by
  have hi : Inv (Table.new.run ops) := run_inv inv_new hv
  obtain ⟨hd, hf, hc⟩ := add_cases h
  refine ⟨?_, ?_, by simp [Open, hf], by simp [hd, put], fun j hj => by simp [hd, put, hj]⟩
  · rcases hc with ⟨hl, -⟩ | ⟨-, -, hge, -⟩
    · exact (leastGe_some hl).2.1
    · omega
  · rcases hc with ⟨hl, -⟩ | ⟨-, -, -, hle, -⟩
    · exact hi.availLe _ (leastGe_some hl).1
    · exact hle

/-- **C21 (no panic).** -/
theorem C21_no_panic (ops : List (Op D)) (hv : ∀ o ∈ ops, o.Valid) (d : D) (m : Nat) :
    (Table.new.run ops).add d m ≠ .panic := by
  have hi : Inv (Table.new.run ops) := run_inv inv_new hv
  intro h
  unfold Table.add at h
  split at h
  · rename_i idx hl
    have := hi.free idx (leastGe_some hl).1
    simp [store, this] at h
  · simp only at h
    split at h
    · simp at h
    · split at h
      · simp at h
      · rename_i idx hs
        have := (search_some hs).2.2.1
        simp [store, this] at h

/-- **C21 (full).** `add` fails exactly if every number from the requested minimum up to the
    limit is in use. -/
theorem C21_fails_iff_full (ops : List (Op D)) (hv : ∀ o ∈ ops, o.Valid) (d : D) (m : Nat) :
    (Table.new.run ops).add d m = .err ↔ ∀ j, m ≤ j → j ≤ fdMax → Open (Table.new.run ops) j := by
  have hi : Inv (Table.new.run ops) := run_inv inv_new hv
  generalize Table.new.run ops = t at hi
  constructor
  · intro h j hj hjm
    unfold Table.add at h
    split at h
    · simp only [store] at h; split at h <;> simp at h
    · rename_i hl
      have hna : j ∉ t.avail := fun hm => by have := leastGe_none hl j hm; omega
      have hlow : j < t.next → t.descs j ≠ none := by
        intro hn
        rcases hi.below j hn with h1 | h1
        · exact h1
        · exact absurd h1 hna
      simp only at h
      by_cases hjn : j < t.next
      · exact hlow hjn
      · split at h
        · omega
        · split at h
          · rename_i hs
            exact search_none hs j (by omega) (by omega)
          · simp only [store] at h; split at h <;> simp at h
  · intro hall
    cases h : t.add d m with
    | err => rfl
    | panic =>
      exfalso
      unfold Table.add at h
      split at h
      · rename_i idx hl
        have := hi.free idx (leastGe_some hl).1
        simp [store, this] at h
      · simp only at h
        split at h
        · simp at h
        · split at h
          · simp at h
          · rename_i idx hs
            have := (search_some hs).2.2.1
            simp [store, this] at h
    | ok fd t' =>
      exfalso
      obtain ⟨hd, hf, hc⟩ := add_cases h
      rcases hc with ⟨hl, -⟩ | ⟨-, -, hge, hle, -⟩
      · obtain ⟨h1, h2, -⟩ := leastGe_some hl
        exact hall fd h2 (hi.availLe fd h1) hf
      · exact hall fd (by omega) hle hf

/-- **C21 (set and close).** `set` (dup2) makes exactly that number refer to the new file and hands
    back what it replaced; `deregister` (close) frees exactly that number and hands back what it
    referred to; the range and total variants free exactly the numbers they name. -/
theorem C21_set_close (t : Table D) (i : Nat) (d : D) :
    ((t.set i d).1 = t.descs i ∧ (t.set i d).2.descs i = some d ∧
      ∀ j, j ≠ i → (t.set i d).2.descs j = t.descs j) ∧
    ((t.deregister i).1 = t.descs i ∧ ¬ Open (t.deregister i).2 i ∧
      ∀ j, j ≠ i → (t.deregister i).2.descs j = t.descs j) ∧
    (∀ j, ¬ Open t.removeAll j) ∧
    (∀ lo n j, (t.removeRange lo n).descs j =
      if lo ≤ j ∧ j < lo + n then none else t.descs j) := by
  refine ⟨⟨rfl, by simp [Table.set, put], fun j hj => by simp [Table.set, put, hj]⟩,
    ⟨rfl, by simp [Open, close_descs, put], fun j hj => by simp [close_descs, put, hj]⟩,
    by simp [Table.removeAll, Table.new, Open], ?_⟩
  intro lo n j
  unfold Table.removeRange
  rw [removeGo_descs]
  simp only [List.mem_filter, List.mem_range']
  by_cases hr : lo ≤ j ∧ j < lo + n
  · rw [if_pos hr]
    split
    · rfl
    · rename_i h
      cases hd : t.descs j with
      | none => rfl
      | some d =>
        exfalso; apply h
        exact ⟨⟨j - lo, by omega, by omega⟩, by simp [hd]⟩
  · rw [if_neg hr, if_neg]
    rintro ⟨⟨k, h1, h2⟩, -⟩
    omega

/-! ## C21, the lowest free number -/

/-- Histories that keep the documented meaning of `available_indices`: a minimum is only asked for
    at or below an open number, dup2 only targets numbers at or below an open one, and only open
    descriptors are closed. -/
def TidyOp (t : Table D) : Op D → Prop
  | .add _ m => m = 0 ∨ ∃ j, m ≤ j ∧ Open t j
  | .set i _ => ∃ j, i ≤ j ∧ Open t j
  | .close i => Open t i
  | .removeAll => True
  | .removeRange _ _ => True

def TidyRun (t : Table D) : List (Op D) → Prop
  | [] => True
  | o :: os => o.Valid ∧ TidyOp t o ∧ TidyRun (t.apply o) os

theorem open_below {t : Table D} (ht : Tidy t) {j : Nat} (h : Open t j) : j < t.next := by
  apply Classical.byContradiction
  intro hn
  exact h (ht.above j (by omega))

theorem add_tidy {t t' : Table D} {d : D} {m fd : Nat} (hi : Inv t) (ht : Tidy t)
    (hm : m = 0 ∨ ∃ j, m ≤ j ∧ Open t j) (h : t.add d m = .ok fd t') : Tidy t' := by
  have hmn : m ≤ t.next := by
    rcases hm with h1 | ⟨j, h1, h2⟩
    · omega
    · have := open_below ht h2; omega
  obtain ⟨hd, hf, hc⟩ := add_cases h
  rcases hc with ⟨hl, ha, hn⟩ | ⟨hl, ha, hge, hle, hall, hn⟩
  · obtain ⟨l1, l2, l3⟩ := leastGe_some hl
    have hfd := ht.availBelow fd l1
    refine ⟨?_, ?_, ?_⟩
    · intro i hi'
      rw [ha] at hi'; simp [List.mem_filter] at hi'
      rw [hn]; exact ht.availBelow i hi'.1
    · rw [hn, hd]
      rcases ht.top with h1 | h1
      · exact .inl h1
      · right; simp only [put]; split
        · simp
        · exact h1
    · intro i hi'
      rw [hn] at hi'
      rw [hd, put, if_neg (by omega)]
      exact ht.above i hi'
  · rw [if_pos hmn] at hn
    refine ⟨?_, ?_, ?_⟩
    · intro i hi'
      rw [ha] at hi'; have := ht.availBelow i hi'; omega
    · right; rw [hn, hd]; simp [put]
    · intro i hi'
      rw [hd, put, if_neg (by omega)]
      exact ht.above i (by omega)

theorem close_tidy {t : Table D} {i : Nat} (hi : Inv t) (ht : Tidy t) (ho : Open t i) :
    Tidy (t.deregister i).2 := by
  have hin := open_below ht ho
  simp only [Table.deregister, Table.trimTail]
  generalize hl : (if i ∈ t.avail then t.avail else i :: t.avail) = l
  have hm : ∀ x, x ∈ l ↔ x = i ∨ x ∈ t.avail := by intro x; rw [← hl]; exact close_mem t i x
  have hlt : ∀ x ∈ l, x < t.next := by
    intro x hx
    rcases (hm x).mp hx with rfl | h1
    · exact hin
    · exact ht.availBelow x h1
  obtain ⟨h1, h2, h3⟩ := trimGo_spec l t.next l.length
  have h4 := trimGo_done l t.next l.length (Nat.le_refl _) hlt
  refine ⟨?_, ?_, ?_⟩
  · intro x hx
    simp only at hx ⊢
    rw [h2 x] at hx
    have := hlt x hx.1
    omega
  · simp only
    by_cases h0 : (trimGo l t.next l.length).2 = 0
    · exact .inl h0
    · right
      intro hnone
      generalize hk : (trimGo l t.next l.length).2 = k at *
      have hmem : k - 1 ∈ l := by
        rw [hm]
        by_cases hki : k - 1 = i
        · exact .inl hki
        · right
          simp only [put, if_neg hki] at hnone
          rcases hi.below (k - 1) (by omega) with h5 | h5
          · exact absurd hnone h5
          · exact h5
      have : k - 1 ∈ (trimGo l t.next l.length).1 := by rw [h2]; exact ⟨hmem, by omega⟩
      exact h4 _ this (by omega)
  · intro x hx
    simp only [put] at hx ⊢
    split
    · rfl
    · rename_i hxi
      by_cases hxn : x < t.next
      · have := h3 x hx hxn
        rcases (hm x).mp this with h5 | h5
        · exact absurd h5 hxi
        · exact hi.free x h5
      · exact ht.above x (by omega)

theorem removeGo_tidy (l : List Nat) (hnd : l.Nodup) {t : Table D} (hi : Inv t) (ht : Tidy t)
    (hl : ∀ i ∈ l, i ≤ fdMax ∧ Open t i) :
    Tidy (l.foldl (fun t i => (t.deregister i).2) t) := by
  induction l generalizing t with
  | nil => exact ht
  | cons a l ih =>
    rw [List.nodup_cons] at hnd
    apply ih hnd.2 (close_inv hi (hl a (by simp)).1) (close_tidy hi ht (hl a (by simp)).2)
    intro i h
    refine ⟨(hl i (by simp [h])).1, ?_⟩
    have : i ≠ a := fun h1 => hnd.1 (h1 ▸ h)
    simp only [Open, close_descs, put, if_neg this]
    exact (hl i (by simp [h])).2

theorem apply_tidy {t : Table D} {op : Op D} (hi : Inv t) (ht : Tidy t) (hv : op.Valid)
    (ho : TidyOp t op) : Tidy (t.apply op) := by
  cases op with
  | add d m =>
    simp only [Table.apply]
    cases h : t.add d m with
    | ok fd t' => exact add_tidy hi ht ho h
    | err => exact ht
    | panic => exact ht
  | set i d =>
    obtain ⟨j, hj, hjo⟩ := ho
    have := open_below ht hjo
    refine ⟨?_, ?_, ?_⟩
    · intro x hx
      simp [Table.apply, Table.set, List.mem_filter] at hx
      exact ht.availBelow x hx.1
    · rcases ht.top with h1 | h1
      · exact .inl h1
      · right
        simp only [Table.apply, Table.set, put]
        split
        · simp
        · exact h1
    · intro x hx
      simp only [Table.apply, Table.set, put] at hx ⊢
      rw [if_neg (by omega)]
      exact ht.above x hx
  | close i => exact close_tidy hi ht ho
  | removeAll => exact tidy_new
  | removeRange lo n =>
    refine removeGo_tidy _ ?_ hi ht ?_
    · exact List.Nodup.sublist List.filter_sublist (List.nodup_range' (step := 1))
    · intro i h
      simp only [Op.Valid] at hv
      simp [List.mem_filter, List.mem_range'] at h
      obtain ⟨⟨k, h1, h2⟩, h3⟩ := h
      refine ⟨by omega, ?_⟩
      intro h4
      simp [h4] at h3

theorem run_tidy {t : Table D} {ops : List (Op D)} (hi : Inv t) (ht : Tidy t)
    (hr : TidyRun t ops) : Inv (t.run ops) ∧ Tidy (t.run ops) := by
  induction ops generalizing t with
  | nil => exact ⟨hi, ht⟩
  | cons o os ih =>
    obtain ⟨h1, h2, h3⟩ := hr
    exact ih (apply_inv hi h1) (apply_tidy hi ht h1 h2) h3

/-- **C21 (lowest).** After any tidy history a successful `add` returns the lowest number at or
    above the requested minimum that is not in use.  (Missing for the full claim: histories with
    `F_DUPFD` or `dup2` above all open numbers or with closes of unopened numbers, for which it is
    false, see below.) -/
theorem C21_lowest_partial (ops : List (Op D)) (hr : TidyRun Table.new ops) (d : D) (m fd : Nat)
    (t' : Table D) (h : (Table.new.run ops).add d m = .ok fd t') :
    Lowest (Table.new.run ops) m fd := by
  obtain ⟨hi, ht⟩ := run_tidy inv_new tidy_new hr
  generalize Table.new.run ops = t at *
  obtain ⟨hd, hf, hc⟩ := add_cases h
  rcases hc with ⟨hl, ha, hn⟩ | ⟨hl, ha, hge, hle, hall, hn⟩
  · obtain ⟨l1, l2, l3⟩ := leastGe_some hl
    refine ⟨l2, by simp [Open, hf], ?_⟩
    intro j hj hjf
    have := ht.availBelow fd l1
    rcases hi.below j (by omega) with h1 | h1
    · exact h1
    · have := l3 j h1 hj; omega
  · refine ⟨by omega, by simp [Open, hf], ?_⟩
    intro j hj hjf
    by_cases hjn : j < t.next
    · rcases hi.below j hjn with h1 | h1
      · exact h1
      · have := leastGe_none hl j h1; omega
    · exact hall j (by omega) hjf

/-- A table with three standard descriptors. -/
def std : List (Op Nat) := [.add 0 0, .add 1 0, .add 2 0]

/-- What the next `add` returns after a history. -/
def nextFd (ops : List (Op Nat)) : Option Nat :=
  match (Table.new.run ops).add 9 0 with
  | .ok fd _ => some fd
  | _ => none

/-- **C21 (finding).** Closing a number that is not open (the call fails with EBADF) puts it into the
    set of available numbers; the next open then returns it instead of the lowest free number. -/
theorem C21_not_lowest_after_bad_close :
    nextFd (std ++ [.close 100]) = some 100 ∧
    Lowest (Table.new.run (std ++ [.close 100])) 0 3 := by
  refine ⟨by decide, by omega, by decide, ?_⟩
  intro j _ hj
  have : j = 0 ∨ j = 1 ∨ j = 2 := by omega
  rcases this with rfl | rfl | rfl <;> decide

/-- **C21 (finding).** The same happens after dup2 to a high number and closing it. -/
theorem C21_not_lowest_after_dup2 :
    nextFd (std ++ [.set 100 5, .close 100]) = some 100 ∧
    Lowest (Table.new.run (std ++ [.set 100 5, .close 100])) 0 3 := by
  refine ⟨by decide, by omega, by decide, ?_⟩
  intro j _ hj
  have : j = 0 ∨ j = 1 ∨ j = 2 := by omega
  rcases this with rfl | rfl | rfl <;> decide

/-- A tidy history: open four, close the middle ones, reuse, dup2, close a range. -/
def tidyOps : List (Op Nat) :=
  std ++ [.add 3 0, .close 1, .close 2, .add 4 0, .set 2 6, .add 7 2, .removeRange 1 2]

example : TidyRun (Table.new : Table Nat) tidyOps := by
  refine ⟨by decide, .inl rfl, by decide, .inl rfl, by decide, .inl rfl, by decide, .inl rfl,
    by decide, by show Open _ _; decide, by decide, by show Open _ _; decide, by decide, .inl rfl,
    by decide, ⟨3, by decide, by decide⟩, by decide, .inr ⟨3, by decide, by decide⟩,
    by decide, trivial, trivial⟩

example : nextFd tidyOps = some 1 := by decide
example : nextFd (std ++ [.add 3 0, .close 1, .close 2]) = some 1 := by decide

end Shadow.Fd
