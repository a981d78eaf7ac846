import Verif.Listen.Model

/-!
# Listeners and the callback queue: properties (C53)
-/
namespace Shadow.Listen
open Shadow.Base

variable {L M C : Type}

/-! ## Specification of executions -/

/-- The listeners of a source that still have a handle, in the order in which they were added. -/
def St.live (s : St L M C) (k : Nat) : List (Nat × L) :=
  s.handles.filterMap fun h => if h.1 = k then some h.2 else none

/-- What an action promises to run: a notification promises a call of each listener that still has a
handle, with the message, in the order in which they were added. -/
def promised (s : St L M C) : Act L M C → List (Cb L M C)
  | .notify k msg => (s.live k).map fun x => .listener k x.1 x.2 msg
  | .add c => [.other c]
  | _ => []

/-- The contract: a source has fewer than 2³² listeners. -/
def allowed (s : St L M C) : Act L M C → Prop
  | .listen k _ => (s.live k).length < idMod
  | _ => True

/-- Executions from no listeners, with what was promised and what ran. -/
inductive Run [DecidableEq L] (s₀ : St L M C) : List (Cb L M C) → List (Cb L M C) → St L M C → Prop where
  | nil : Run s₀ [] [] s₀
  | step {p r s a s' x} : Run s₀ p r s → allowed s a → step s a = some (.ok (s', x)) →
      Run s₀ (p ++ promised s a) (r ++ x.toList) s'

/-- Sources without listeners. -/
def Start (s : St L M C) : Prop :=
  s.handles = [] ∧ s.queue = [] ∧ ∀ k src, s.sources k = some src → src.listeners = [] ∧ src.nextId < idMod

/-! ## Ids -/

theorem unused_none {ls : List (Nat × L)} {fuel next : Nat} (hn : next < idMod)
    (h : unusedLoop ls fuel next = .panic) :
    ∀ i, i < fuel → (next + i) % idMod ∈ ls.map (·.1) := by
  induction fuel generalizing next with
  | zero => intro i hi; omega
  | succ fuel ih =>
    unfold unusedLoop at h
    split at h
    · rename_i hu
      intro i hi
      cases i with
      | zero =>
        simp only [List.any_eq_true, decide_eq_true_eq] at hu
        obtain ⟨x, hx, he⟩ := hu
        rw [Nat.add_zero, Nat.mod_eq_of_lt hn, ← he]
        exact List.mem_map_of_mem hx
      | succ i =>
        have := ih (Nat.mod_lt _ (by decide)) h i (by omega)
        rw [Nat.mod_add_mod] at this
        rwa [show next + (i + 1) = next + 1 + i by omega]
    · cases h

theorem unused_some {ls : List (Nat × L)} {fuel next id next' : Nat} (hn : next < idMod)
    (h : unusedLoop ls fuel next = .ok (id, next')) :
    id ∉ ls.map (·.1) ∧ next' < idMod := by
  induction fuel generalizing next with
  | zero => cases h
  | succ fuel ih =>
    unfold unusedLoop at h
    split at h
    · exact ih (Nat.mod_lt _ (by decide)) h
    · rename_i hu
      cases h
      refine ⟨fun hm => hu ?_, Nat.mod_lt _ (by decide)⟩
      obtain ⟨x, hx, he⟩ := List.mem_map.1 hm
      simp only [List.any_eq_true, decide_eq_true_eq]
      exact ⟨x, hx, he⟩

theorem mod_inj {a b n m : Nat} (ha : a < m) (hb : b < m) (h : (n + a) % m = (n + b) % m) : a = b := by
  have h1 := Nat.div_add_mod (n + a) m
  have h2 := Nat.div_add_mod (n + b) m
  rw [h] at h1
  generalize (n + b) % m = r at *
  generalize hq : (n + a) / m = q at *
  generalize hq' : (n + b) / m = q' at *
  rcases Nat.lt_trichotomy q q' with h3 | h3 | h3
  · have : m * (q + 1) ≤ m * q' := Nat.mul_le_mul_left m h3
    rw [Nat.mul_add] at this
    omega
  · subst h3; omega
  · have : m * (q' + 1) ≤ m * q := Nat.mul_le_mul_left m h3
    rw [Nat.mul_add] at this
    omega

/-- **C53 (ids)**: a new listener gets an id that no other listener of the source has, also after the
counter has wrapped around, and comes last. -/
theorem C53_ids (s : Source L) (l : L) (hlt : s.listeners.length < idMod) (hn : s.nextId < idMod) :
    ∃ id n, s.add l = .ok (id, ⟨s.listeners ++ [(id, l)], n⟩) ∧ id ∉ s.listeners.map (·.1) ∧ n < idMod := by
  unfold Source.add
  cases h : unusedLoop s.listeners (s.listeners.length + 1) s.nextId with
  | ok x =>
    obtain ⟨id, n⟩ := x
    obtain ⟨h1, h2⟩ := unused_some hn h
    exact ⟨id, n, rfl, h1, h2⟩
  | panic =>
    exfalso
    have hu := unused_none hn h
    have hnd : ((List.range (s.listeners.length + 1)).map fun i => (s.nextId + i) % idMod).Nodup := by
      refine List.pairwise_map.2 ?_
      refine List.Pairwise.imp_of_mem ?_ List.nodup_range
      intro a b ha hb hne he
      rw [List.mem_range] at ha hb
      exact hne (mod_inj (by omega) (by omega) he)
    have := List.Nodup.length_le_of_subset hnd (l₂ := s.listeners.map (·.1)) (by
      intro x hx
      obtain ⟨i, hi, rfl⟩ := List.mem_map.1 hx
      exact hu i (List.mem_range.1 hi))
    simp only [List.length_map, List.length_range] at this
    omega

/-! ## Handles and listeners -/

/-- Each source has exactly the listeners whose handle exists, in order, with distinct ids. -/
structure Inv (s : St L M C) : Prop where
  same : ∀ k src, s.sources k = some src → src.listeners = s.live k
  distinct : ∀ k src, s.sources k = some src → ((s.live k).map (·.1)).Nodup
  small : ∀ k src, s.sources k = some src → src.nextId < idMod

theorem live_append (s : St L M C) (h : Nat × Nat × L) (q : List (Cb L M C)) (srcs) (k : Nat) :
    St.live (⟨srcs, s.handles ++ [h], q⟩ : St L M C) k =
      s.live k ++ (if h.1 = k then [h.2] else []) := by
  simp only [St.live, List.filterMap_append]
  congr 1
  simp only [List.filterMap_cons, List.filterMap_nil]
  split <;> rename_i hh <;> split at hh <;> simp_all

theorem live_erase [DecidableEq L] (hs : List (Nat × Nat × L)) (h : Nat × Nat × L) {k : Nat} (hk : h.1 ≠ k) :
    ((hs.erase h).filterMap fun h => if h.1 = k then some h.2 else none) =
    hs.filterMap fun h => if h.1 = k then some h.2 else none := by
  induction hs with
  | nil => rfl
  | cons x xs ih =>
    rw [List.erase_cons]
    split
    · rename_i he
      have : x = h := by simpa using he
      subst this
      rw [List.filterMap_cons, if_neg hk]
    · simp only [List.filterMap_cons, ih]

theorem live_remove [DecidableEq L] (hs : List (Nat × Nat × L)) (h : Nat × Nat × L) {k id : Nat}
    (hf : hs.find? (fun h => h.1 = k ∧ h.2.1 = id) = some h) :
    removeFirst (hs.filterMap fun h => if h.1 = k then some h.2 else none) id =
    some ((hs.erase h).filterMap fun h => if h.1 = k then some h.2 else none) := by
  induction hs with
  | nil => simp at hf
  | cons x xs ih =>
    rw [List.find?_cons] at hf
    split at hf
    · rename_i hx
      cases hf
      simp only [decide_eq_true_eq] at hx
      rw [List.erase_cons_head, List.filterMap_cons, if_pos hx.1]
      simp only [removeFirst, if_pos hx.2]
    · rename_i hx
      have hne : ¬ (x == h) = true := by
        intro he
        have : x = h := by simpa using he
        subst this
        have := List.find?_some hf
        simp only [hx] at this
        cases this
      rw [List.erase_cons_tail hne]
      simp only [List.filterMap_cons]
      by_cases hk : x.1 = k
      · simp only [if_pos hk, removeFirst]
        have hid : ¬ x.2.1 = id := by
          intro h'
          simp [hk, h'] at hx
        rw [if_neg hid, ih hf]
        rfl
      · simp only [if_neg hk]
        exact ih hf

theorem removeFirst_sublist {ls ls' : List (Nat × L)} {id : Nat} (h : removeFirst ls id = some ls') :
    ls'.Sublist ls := by
  induction ls generalizing ls' with
  | nil => cases h
  | cons x xs ih =>
    unfold removeFirst at h
    split at h
    · cases h; exact List.sublist_cons_self ..
    · obtain ⟨l, hl, rfl⟩ := Option.map_eq_some_iff.1 h
      exact (ih hl).cons_cons x

theorem start_inv {s : St L M C} (h : Start s) : Inv s where
  same := fun k src hs => by rw [(h.2.2 k src hs).1]; simp [St.live, h.1]
  distinct := fun k src _ => by simp [St.live, h.1]
  small := fun k src hs => (h.2.2 k src hs).2

theorem step_inv [DecidableEq L] {s : St L M C} (h : Inv s) {a : Act L M C} (ha : allowed s a) {r}
    (hs : step s a = some r) :
    ∃ s' x, r = .ok (s', x) ∧ Inv s' ∧ s.queue ++ promised s a = x.toList ++ s'.queue := by
  cases a with
  | listen k l =>
    simp only [step] at hs
    split at hs
    · cases hs
    · rename_i src hsrc
      cases hs
      obtain ⟨id, n, h1, h2, h3⟩ := C53_ids src l (by rw [h.same k src hsrc]; exact ha) (h.small k src hsrc)
      rw [h1]
      refine ⟨_, _, rfl, ⟨?_, ?_, ?_⟩, by simp [promised]⟩
      · intro j src' hj
        simp only at hj
        rw [live_append]
        split at hj
        · rename_i hjk
          cases hj
          subst hjk
          simp only [h.same _ _ hsrc, if_true]
        · rename_i hjk
          rw [if_neg (fun h' : k = j => hjk h'.symm), List.append_nil]
          exact h.same j src' hj
      · intro j src' hj
        simp only at hj
        rw [live_append]
        split at hj
        · rename_i hjk
          subst hjk
          rw [if_pos rfl, List.map_append, List.nodup_append]
          refine ⟨h.distinct _ _ hsrc, by simp, ?_⟩
          intro a ha' b hb
          simp only [List.map_cons, List.map_nil, List.mem_singleton] at hb
          subst hb
          rintro rfl
          rw [h.same _ _ hsrc] at h2
          exact h2 ha'
        · rename_i hjk
          rw [if_neg (fun h' : k = j => hjk h'.symm), List.append_nil]
          exact h.distinct j src' hj
      · intro j src' hj
        simp only at hj
        split at hj
        · cases hj; exact h3
        · exact h.small j src' hj
  | drop k id =>
    simp only [step] at hs
    split at hs
    · cases hs
    · rename_i hd hf
      have hk : hd.1 = k := by
        have := List.find?_some hf
        simp only [decide_eq_true_eq] at this
        exact this.1
      split at hs
      · rename_i hnone
        cases hs
        have hlive : ∀ j src', s.sources j = some src' →
            St.live ({ s with handles := s.handles.erase hd } : St L M C) j = s.live j := by
          intro j src' hj
          refine live_erase s.handles hd ?_
          rintro rfl
          rw [hk] at hj
          rw [hnone] at hj; cases hj
        refine ⟨_, _, rfl, ⟨?_, ?_, h.small⟩, by simp [promised]⟩
        · intro j src' hj; rw [hlive j src' hj]; exact h.same j src' hj
        · intro j src' hj; rw [hlive j src' hj]; exact h.distinct j src' hj
      · rename_i src hsrc
        cases hs
        have hrem := live_remove s.handles hd hf
        have hls : src.listeners = _ := h.same k src hsrc
        unfold Source.remove
        rw [hls]
        unfold St.live
        rw [hrem]
        simp only [R.unwrap_some, R.bind_ok]
        have hlive : ∀ j, j ≠ k → ∀ srcs q,
            St.live (⟨srcs, s.handles.erase hd, q⟩ : St L M C) j = s.live j := by
          intro j hj _ _
          refine live_erase s.handles hd ?_
          rw [hk]; exact fun h' => hj h'.symm
        refine ⟨_, _, rfl, ⟨?_, ?_, ?_⟩, by simp [promised]⟩
        · intro j src' hj
          simp only at hj
          split at hj
          · rename_i hjk
            cases hj; subst hjk; rfl
          · rename_i hjk
            rw [hlive j hjk]; exact h.same j src' hj
        · intro j src' hj
          simp only at hj
          split at hj
          · rename_i hjk
            subst hjk
            exact List.Nodup.sublist ((removeFirst_sublist hrem).map (·.1)) (h.distinct _ _ hsrc)
          · rename_i hjk
            rw [hlive j hjk]; exact h.distinct j src' hj
        · intro j src' hj
          simp only at hj
          split at hj
          · rename_i hjk
            cases hj
            exact h.small k src hsrc
          · exact h.small j src' hj
  | notify k msg =>
    simp only [step] at hs
    split at hs
    · cases hs
    · rename_i src hsrc
      cases hs
      refine ⟨_, _, rfl, ⟨h.same, h.distinct, h.small⟩, ?_⟩
      simp only [promised, ← h.same k src hsrc]
      rfl
  | add c =>
    simp only [step] at hs
    cases hs
    exact ⟨_, _, rfl, ⟨h.same, h.distinct, h.small⟩, rfl⟩
  | run =>
    simp only [step] at hs
    split at hs
    · cases hs
    · rename_i x xs hq
      cases hs
      exact ⟨_, _, rfl, ⟨h.same, h.distinct, h.small⟩, by simp [promised, hq]⟩
  | free k =>
    simp only [step] at hs
    split at hs
    · cases hs
    · cases hs
      refine ⟨_, _, rfl, ⟨?_, ?_, ?_⟩, by simp [promised]⟩
      · intro j src' hj
        simp only at hj
        split at hj
        · cases hj
        · exact h.same j src' hj
      · intro j src' hj
        simp only at hj
        split at hj
        · cases hj
        · exact h.distinct j src' hj
      · intro j src' hj
        simp only at hj
        split at hj
        · cases hj
        · exact h.small j src' hj

theorem run_inv [DecidableEq L] {s₀ s : St L M C} {p r} (h₀ : Start s₀) (hr : Run s₀ p r s) :
    Inv s ∧ p = r ++ s.queue := by
  induction hr with
  | nil => exact ⟨start_inv h₀, by simp [h₀.2.1]⟩
  | step _ ha hs ih =>
    obtain ⟨s', x, h1, h2, h3⟩ := step_inv ih.1 ha hs
    cases h1
    refine ⟨h2, ?_⟩
    rw [ih.2, List.append_assoc, h3, List.append_assoc]

/-- **C53 (registration)**: at any time a source has exactly the listeners whose handle was not
dropped, in the order in which they were added, with distinct ids; so dropping a handle removes its own
listener and no other. -/
theorem C53_handles [DecidableEq L] {s₀ s : St L M C} {p r} (h₀ : Start s₀) (hr : Run s₀ p r s) {k : Nat}
    {src : Source L} (hk : s.sources k = some src) :
    src.listeners = s.live k ∧ (src.listeners.map (·.1)).Nodup := by
  have h := (run_inv h₀ hr).1
  exact ⟨h.same k src hk, by rw [h.same k src hk]; exact h.distinct k src hk⟩

/-- **C53 (no panic)**: no action fails: an unused id is found and the listener of a handle is there. -/
theorem C53_no_panic [DecidableEq L] {s₀ s : St L M C} {p r} (h₀ : Start s₀) (hr : Run s₀ p r s)
    {a : Act L M C} (ha : allowed s a) {x} (hs : step s a = some x) : x ≠ .panic := by
  obtain ⟨s', y, h1, -⟩ := step_inv (run_inv h₀ hr).1 ha hs
  rw [h1]; exact fun h => by cases h

/-- **C53 (delivery)**: what ran so far, followed by what is queued, is exactly what was promised, in
order: every listener that had a handle when its source was notified is called once per notification
with the message of that notification, in the order of the notifications and then of registration. -/
theorem C53_delivery [DecidableEq L] {s₀ s : St L M C} {p r} (h₀ : Start s₀) (hr : Run s₀ p r s) :
    p = r ++ s.queue := (run_inv h₀ hr).2

/-- **C53 (completion)**: when `run` returns, everything promised has run. -/
theorem C53_complete [DecidableEq L] {s₀ s : St L M C} {p r} (h₀ : Start s₀) (hr : Run s₀ p r s)
    (hdone : step s .run = none) : r = p := by
  have h := C53_delivery h₀ hr
  simp only [step] at hdone
  split at hdone
  · rename_i hq
    rw [hq, List.append_nil] at h
    exact h.symm
  · cases hdone

/-- **C53 (finding)**: a listener whose handle was dropped is still called, if its source was notified
before and the callback waits in the queue. -/
theorem C53_finding_after_drop : ∃ (s₀ s : St Nat Nat Nat) (p r : List (Cb Nat Nat Nat)),
    Start s₀ ∧ Run s₀ p r s ∧ s.handles = [] ∧ ∃ s' x, step s .run = some (.ok (s', some x)) ∧
      x = .listener 0 0 7 5 := by
  refine ⟨⟨fun _ => some {}, [], []⟩, _, _, _, ⟨rfl, rfl, fun k src h => ?_⟩,
    .step (.step (.step .nil (a := .listen 0 7) ?_ rfl) (a := .notify 0 5) trivial rfl)
      (a := .drop 0 0) trivial rfl, rfl, _, _, rfl, rfl⟩
  · cases h; exact ⟨rfl, by decide⟩
  · show (0 : Nat) < 2 ^ 32; decide

/-! ## Filters -/

theorem ne_zero_iff {w : Nat} (a : BitVec w) : (a != 0#w) = true ↔ ∃ i, a.getLsbD i = true := by
  constructor
  · intro h
    apply Classical.byContradiction
    intro hn
    have : a = 0#w := by
      apply BitVec.eq_of_getLsbD_eq
      intro i _
      rw [BitVec.getLsbD_zero]
      cases hb : a.getLsbD i with
      | false => rfl
      | true => exact absurd ⟨i, hb⟩ hn
    rw [this] at h
    simp at h
  · rintro ⟨i, hi⟩
    apply bne_iff_ne.2
    rintro rfl
    simp at hi

theorem intersects_iff {w : Nat} (a b : BitVec w) :
    intersects a b = true ↔ ∃ i, a.getLsbD i = true ∧ b.getLsbD i = true := by
  unfold intersects
  rw [ne_zero_iff]
  simp [BitVec.getLsbD_and]

/-- When a listener hears of a change from `old` to `new`. -/
def Hears {w : Nat} (m : BitVec w) (f : Filter) (old new : BitVec w) : Prop :=
  match f with
  | .never => False
  | .always => ∃ i, m.getLsbD i = true ∧ old.getLsbD i ≠ new.getLsbD i
  | .onToOff => (∃ i, m.getLsbD i = true ∧ old.getLsbD i = true) ∧
      ∀ i, m.getLsbD i = true → new.getLsbD i = false
  | .offToOn => (∃ i, m.getLsbD i = true ∧ old.getLsbD i ≠ new.getLsbD i) ∧
      ∃ i, m.getLsbD i = true ∧ new.getLsbD i = true

theorem flipped_iff {w : Nat} (m old new : BitVec w) :
    intersects m (new ^^^ old) = true ↔ ∃ i, m.getLsbD i = true ∧ old.getLsbD i ≠ new.getLsbD i := by
  rw [intersects_iff]
  constructor
  · rintro ⟨i, h1, h2⟩
    refine ⟨i, h1, fun h => ?_⟩
    rw [BitVec.getLsbD_xor, h] at h2
    simp at h2
  · rintro ⟨i, h1, h2⟩
    refine ⟨i, h1, ?_⟩
    rw [BitVec.getLsbD_xor]
    cases ha : old.getLsbD i <;> cases hb : new.getLsbD i <;> simp_all

theorem legacy_iff {w : Nat} (m : BitVec w) (f : Filter) (old new : BitVec w) :
    legacyNotify m f new (new ^^^ old) = true ↔ Hears m f old new := by
  have h1 := flipped_iff m old new
  have h2 := intersects_iff m new
  unfold intersects at h1 h2
  unfold legacyNotify Hears
  cases f with
  | never => simp
  | always => simpa using h1
  | offToOn =>
    simp only [Bool.and_eq_true]
    rw [h1, h2]
  | onToOff =>
    simp only [Bool.and_eq_true, Bool.not_eq_true']
    rw [h1, ← Bool.not_eq_true, h2]
    constructor
    · rintro ⟨⟨i, hi, hd⟩, hn⟩
      have hoff : ∀ i, m.getLsbD i = true → new.getLsbD i = false := by
        intro j hj
        cases hb : new.getLsbD j with
        | false => rfl
        | true => exact absurd ⟨j, hj, hb⟩ hn
      refine ⟨⟨i, hi, ?_⟩, hoff⟩
      rw [hoff i hi] at hd
      simpa using hd
    · rintro ⟨⟨i, hi, ho⟩, hoff⟩
      refine ⟨⟨i, hi, by rw [ho, hoff i hi]; decide⟩, ?_⟩
      rintro ⟨j, hj, hb⟩
      rw [hoff j hj] at hb; cases hb

theorem filtered_eq {w v : Nat} (mState : BitVec w) (mSig : BitVec v) (f : Filter)
    (st ch : BitVec w) (sig : BitVec v) :
    filtered mState mSig f st ch sig =
      if (legacyNotify mState f st ch || sig &&& mSig != 0#v) = true then some (st, ch, sig &&& mSig) else none := by
  unfold filtered
  have : ∀ b : Bool, ∀ y : BitVec w × BitVec w × BitVec v,
      (if (!b) = true then none else some y) = if b = true then some y else none := by
    intro b y; cases b <;> rfl
  rw [this]
  cases f <;> rfl

/-- **C53 (filter)**: the function of a listener is called exactly if the filter lets the change pass or
a monitored signal was emitted; it gets the new state and the monitored signals. -/
theorem C53_filter {w v : Nat} (mState : BitVec w) (mSig : BitVec v) (f : Filter) (old new : BitVec w)
    (sig : BitVec v) :
    (Hears mState f old new ∨ (∃ i, sig.getLsbD i = true ∧ mSig.getLsbD i = true) →
      filtered mState mSig f new (new ^^^ old) sig = some (new, new ^^^ old, sig &&& mSig)) ∧
    (¬ Hears mState f old new → (¬ ∃ i, sig.getLsbD i = true ∧ mSig.getLsbD i = true) →
      filtered mState mSig f new (new ^^^ old) sig = none) := by
  have hn := legacy_iff mState f old new
  have hs := intersects_iff sig mSig
  unfold intersects at hs
  rw [filtered_eq]
  constructor
  · intro h
    rw [if_pos]
    rw [Bool.or_eq_true]
    rcases h with h | h
    · exact .inl (hn.2 h)
    · exact .inr (hs.2 h)
  · intro h1 h2
    rw [if_neg]
    rw [Bool.or_eq_true]
    rintro (h | h)
    · exact h1 (hn.1 h)
    · exact h2 (hs.1 h)

/-- **C53 (filter of C listeners)**: the same rule. -/
theorem C53_legacy_filter {w : Nat} (m : BitVec w) (f : Filter) (old new : BitVec w) :
    legacyNotify m f new (new ^^^ old) = true ↔ Hears m f old new := legacy_iff m f old new

/-- **C53 (no wake-up is missed)**: if no monitored bit was set and one is set now, a listener for
`OffToOn` is called. -/
theorem C53_not_missed {w v : Nat} (m : BitVec w) (mSig : BitVec v) (old new : BitVec w) (sig : BitVec v)
    (hoff : ∀ i, m.getLsbD i = true → old.getLsbD i = false)
    (hon : ∃ i, m.getLsbD i = true ∧ new.getLsbD i = true) :
    filtered m mSig .offToOn new (new ^^^ old) sig = some (new, new ^^^ old, sig &&& mSig) := by
  obtain ⟨i, h1, h2⟩ := hon
  exact (C53_filter m mSig .offToOn old new sig).1
    (.inl ⟨⟨i, h1, by rw [hoff i h1, h2]; decide⟩, i, h1, h2⟩)

/-- **C53 (one bit)**: a listener for one bit and no signals hears exactly of its rising edges, falling
edges or both. -/
theorem C53_one_bit {w v : Nat} (i : Nat) (hi : i < w) (old new : BitVec w) (sig : BitVec v) :
    let m : BitVec w := BitVec.twoPow w i
    ((filtered m (0#v) .offToOn new (new ^^^ old) sig).isSome ↔ old.getLsbD i = false ∧ new.getLsbD i = true) ∧
    ((filtered m (0#v) .onToOff new (new ^^^ old) sig).isSome ↔ old.getLsbD i = true ∧ new.getLsbD i = false) ∧
    ((filtered m (0#v) .always new (new ^^^ old) sig).isSome ↔ old.getLsbD i ≠ new.getLsbD i) ∧
    ((filtered m (0#v) .never new (new ^^^ old) sig).isSome ↔ False) := by
  intro m
  have hm : ∀ j, m.getLsbD j = true ↔ j = i := by
    intro j
    simp only [m, BitVec.getLsbD_twoPow]
    simp only [decide_eq_true hi, Bool.true_and, decide_eq_true_eq]
    exact eq_comm
  have key : ∀ f, (filtered m (0#v) f new (new ^^^ old) sig).isSome ↔ Hears m f old new := by
    intro f
    obtain ⟨h1, h2⟩ := C53_filter m (0#v) f old new sig
    by_cases hh : Hears m f old new
    · rw [h1 (.inl hh)]; simp [hh]
    · rw [h2 hh (by simp)]; simp [hh]
  refine ⟨?_, ?_, ?_, ?_⟩
  · rw [key]
    unfold Hears
    simp only [hm]
    constructor
    · rintro ⟨⟨j, rfl, h1⟩, k, rfl, h2⟩
      rw [h2] at h1
      exact ⟨by simpa using h1, h2⟩
    · rintro ⟨h1, h2⟩
      exact ⟨⟨i, rfl, by rw [h1, h2]; decide⟩, i, rfl, h2⟩
  · rw [key]
    unfold Hears
    simp only [hm]
    constructor
    · rintro ⟨⟨j, rfl, h1⟩, h2⟩
      exact ⟨h1, h2 _ rfl⟩
    · rintro ⟨h1, h2⟩
      exact ⟨⟨i, rfl, h1⟩, by rintro j rfl; exact h2⟩
  · rw [key]
    unfold Hears
    simp only [hm]
    constructor
    · rintro ⟨j, rfl, h1⟩; exact h1
    · intro h; exact ⟨i, rfl, h⟩
  · rw [key]
    unfold Hears
    exact Iff.rfl

/-- **C53 (finding)**: a listener for `OffToOn` of several bits is also called when one of them is
turned off while another stays on: nothing was turned on. -/
theorem C53_finding_spurious :
    (filtered 3#4 0#1 .offToOn 1#4 (1#4 ^^^ 3#4) 0#1).isSome = true ∧
    ∀ i, (1#4).getLsbD i = true → (3#4).getLsbD i = true := by
  refine ⟨by decide, ?_⟩
  intro i h
  have hi : i < 4 := by
    apply Classical.byContradiction
    intro hn
    rw [BitVec.getLsbD_of_ge _ _ (by omega)] at h
    cases h
  have : i = 0 ∨ i = 1 ∨ i = 2 ∨ i = 3 := by omega
  rcases this with rfl | rfl | rfl | rfl <;> simp_all

/-! ## C listeners -/

/-- Every C listener that was added has its own entry in the source. -/
structure LegacyInv (h : Legacy L) : Prop where
  ids : (h.source.listeners.map (·.1)).Nodup
  once : (h.handles.map (·.1)).Nodup
  there : ∀ x ∈ h.handles, (x.2, x.1) ∈ h.source.listeners
  small : h.source.nextId < idMod

theorem removeFirst_spec {ls : List (Nat × L)} {id : Nat} {l : L} (hnd : (ls.map (·.1)).Nodup)
    (hm : (id, l) ∈ ls) : ∃ ls', removeFirst ls id = some ls' ∧ ∀ x, x ∈ ls' ↔ x ∈ ls ∧ x.1 ≠ id := by
  induction ls with
  | nil => cases hm
  | cons y ys ih =>
    rw [List.map_cons, List.nodup_cons] at hnd
    unfold removeFirst
    by_cases hy : y.1 = id
    · rw [if_pos hy]
      refine ⟨ys, rfl, fun x => ⟨fun hx => ⟨.tail _ hx, fun he => hnd.1 ?_⟩, ?_⟩⟩
      · rw [hy, ← he]; exact List.mem_map_of_mem hx
      · rintro ⟨hx, hne⟩
        cases hx with
        | head => exact absurd hy hne
        | tail _ hx => exact hx
    · rw [if_neg hy]
      cases hm with
      | head => exact absurd rfl hy
      | tail _ hm =>
        obtain ⟨ls', h1, h2⟩ := ih hnd.2 hm
        rw [h1]
        refine ⟨y :: ls', rfl, fun x => ?_⟩
        simp only [List.mem_cons, h2]
        constructor
        · rintro (rfl | ⟨h3, h4⟩)
          · exact ⟨.inl rfl, hy⟩
          · exact ⟨.inr h3, h4⟩
        · rintro ⟨rfl | h3, h4⟩
          · exact .inl rfl
          · exact .inr ⟨h3, h4⟩

/-- **C53 (adding a C listener)**: it is registered once, however often it is added. -/
theorem C53_legacy_add [DecidableEq L] (h : Legacy L) (hi : LegacyInv h) (l : L)
    (hlt : h.source.listeners.length < idMod) :
    ∃ h', h.add l = .ok h' ∧ LegacyInv h' ∧ (∃ id, (l, id) ∈ h'.handles) ∧
      (∀ x, x ∈ h.source.listeners → x ∈ h'.source.listeners) ∧
      ((∃ id, (l, id) ∈ h.handles) → h' = h) := by
  unfold Legacy.add
  by_cases ha : h.handles.any (·.1 = l) = true
  · rw [if_pos ha]
    have : ∃ id, (l, id) ∈ h.handles := by
      simp only [List.any_eq_true, decide_eq_true_eq] at ha
      obtain ⟨⟨a, b⟩, hx, rfl⟩ := ha
      exact ⟨b, hx⟩
    exact ⟨h, rfl, hi, this, fun _ hx => hx, fun _ => rfl⟩
  · rw [if_neg ha]
    obtain ⟨id, n, h1, h2, h3⟩ := C53_ids h.source l hlt hi.small
    have hnew : l ∉ h.handles.map (·.1) := by
      intro hm
      obtain ⟨x, hx, he⟩ := List.mem_map.1 hm
      exact ha (List.any_eq_true.2 ⟨x, hx, by simpa using he⟩)
    rw [h1]
    refine ⟨_, rfl, ⟨?_, ?_, ?_, h3⟩, ⟨id, by simp⟩, fun x hx => by simp [hx], ?_⟩
    · simp only [List.map_append, List.nodup_append]
      refine ⟨hi.ids, by simp, ?_⟩
      intro a ha' b hb
      simp only [List.map_cons, List.map_nil, List.mem_singleton] at hb
      subst hb
      rintro rfl
      exact h2 ha'
    · simp only [List.map_append, List.nodup_append]
      refine ⟨hi.once, by simp, ?_⟩
      intro a ha' b hb
      simp only [List.map_cons, List.map_nil, List.mem_singleton] at hb
      subst hb
      rintro rfl
      exact hnew ha'
    · intro x hx
      rcases List.mem_append.1 hx with hx | hx
      · exact List.mem_append_left _ (hi.there x hx)
      · simp only [List.mem_singleton] at hx
        subst hx; simp
    · rintro ⟨id', hm⟩
      exact absurd (List.mem_map_of_mem (f := (·.1)) hm) hnew

/-- **C53 (removing a C listener)**: its entry goes and all others stay. -/
theorem C53_legacy_remove [DecidableEq L] (h : Legacy L) (hi : LegacyInv h) (l : L) :
    ∃ h', h.remove l = .ok h' ∧ LegacyInv h' ∧ (∀ id, (l, id) ∉ h'.handles) ∧
      (∀ x, x ∈ h'.source.listeners ↔ x ∈ h.source.listeners ∧ (l, x.1) ∉ h.handles) := by
  unfold Legacy.remove
  cases hf : h.handles.find? (·.1 = l) with
  | none =>
    have hno : ∀ id, (l, id) ∉ h.handles := by
      intro id hm
      have := List.find?_eq_none.1 hf _ hm
      simp at this
    exact ⟨h, rfl, hi, hno, fun x => ⟨fun hx => ⟨hx, hno _⟩, fun hx => hx.1⟩⟩
  | some x =>
    obtain ⟨l', id⟩ := x
    have hl : l' = l := by simpa using List.find?_some hf
    subst hl
    have hm : (l', id) ∈ h.handles := List.mem_of_find?_eq_some hf
    have huniq : ∀ id', (l', id') ∈ h.handles → id' = id := by
      intro id' hm'
      have hp := List.pairwise_map.1 hi.once
      apply Classical.byContradiction
      intro hne
      have := List.Pairwise.forall_of_forall_of_flip (R := fun a b : L × Nat => a.1 = b.1 → a = b)
        (l := h.handles) (fun _ _ _ => rfl)
        (hp.imp fun hh he => absurd he hh)
        (hp.imp fun hh he => absurd he.symm hh)
      have := this hm' hm rfl
      exact hne (Prod.mk.inj this).2
    obtain ⟨ls', h1, h2⟩ := removeFirst_spec hi.ids (hi.there _ hm)
    simp only [Source.remove, h1, R.unwrap_some, R.bind_ok]
    have hidsinj : ∀ x ∈ h.handles, x.2 = id → x = (l', id) := by
      intro x hx he
      have g1 := hi.there x hx
      have g2 := hi.there _ hm
      have hp := List.pairwise_map.1 hi.ids
      have := List.Pairwise.forall_of_forall_of_flip (R := fun a b : Nat × L => a.1 = b.1 → a = b)
        (l := h.source.listeners) (fun _ _ _ => rfl)
        (hp.imp fun hh he => absurd he hh)
        (hp.imp fun hh he => absurd he.symm hh)
      have := this g1 g2 he
      obtain ⟨a, b⟩ := x
      simp only [Prod.mk.injEq] at this
      rw [this.1, this.2]
    refine ⟨_, rfl, ⟨?_, ?_, ?_, hi.small⟩, ?_, ?_⟩
    · exact List.Nodup.sublist ((removeFirst_sublist h1).map (·.1)) hi.ids
    · exact List.Nodup.sublist ((List.erase_sublist (a := (l', id)) (l := h.handles)).map (·.1)) hi.once
    · intro x hx
      have hnd : h.handles.Nodup := by
        have hp := List.pairwise_map.1 hi.once
        exact hp.imp fun hh he => hh (by rw [he])
      have hx' := (List.Nodup.mem_erase_iff hnd).1 hx
      exact (h2 _).2 ⟨hi.there x hx'.2, fun he => hx'.1 (hidsinj x hx'.2 he)⟩
    · intro id' hm'
      have hnd : h.handles.Nodup := by
        have hp := List.pairwise_map.1 hi.once
        exact hp.imp fun hh he => hh (by rw [he])
      have hx' := (List.Nodup.mem_erase_iff hnd).1 hm'
      exact hx'.1 (by rw [huniq id' hx'.2])
    · intro x
      rw [h2]
      constructor
      · rintro ⟨hx, hne⟩
        exact ⟨hx, fun hh => hne (huniq _ hh)⟩
      · rintro ⟨hx, hno⟩
        exact ⟨hx, fun he => hno (by rw [he]; exact hm)⟩

/-! ## Examples -/

-- two listeners and two notifications; the second listener is gone before the second notification
example : ∃ (s₀ s : St Nat Nat Nat) (p r : List (Cb Nat Nat Nat)), Start s₀ ∧ Run s₀ p r s ∧
    r = [.listener 0 0 7 5, .listener 0 1 8 5, .listener 0 0 7 6] ∧ s.queue = [] := by
  refine ⟨⟨fun _ => some {}, [], []⟩, _, _, _, ⟨rfl, rfl, fun k src h => ?_⟩,
    .step (.step (.step (.step (.step (.step (.step (.step .nil
      (a := .listen 0 7) ?_ rfl) (a := .listen 0 8) ?_ rfl)
      (a := .notify 0 5) trivial rfl) (a := .run) trivial rfl) (a := .run) trivial rfl)
      (a := .drop 0 1) trivial rfl) (a := .notify 0 6) trivial rfl) (a := .run) trivial rfl, rfl, rfl⟩
  · cases h; exact ⟨rfl, by decide⟩
  · show (0 : Nat) < 2 ^ 32; decide
  · show (1 : Nat) < 2 ^ 32; decide

-- the counter wraps around and skips an id in use
example : ∃ n, (⟨[(2 ^ 32 - 1, 'a'), (0, 'b')], 2 ^ 32 - 1⟩ : Source Char).add 'c' =
    .ok (1, ⟨[(2 ^ 32 - 1, 'a'), (0, 'b'), (1, 'c')], n⟩) := ⟨_, by rfl⟩

example : LegacyInv (⟨⟨[(0, 'a'), (1, 'b')], 2⟩, [('b', 1)]⟩ : Legacy Char) :=
  ⟨by decide, by decide, by decide, by decide⟩

end Shadow.Listen
