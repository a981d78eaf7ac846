import Verif.Rooted.CellModel

/-!
# C60 (cells): one writer or any number of readers
-/
namespace Shadow.Rooted.Cell

open Shadow.Base

/-! ## Specification -/

/-- The value, the guards that exist, and how many of them read. -/
structure Spec where
  v : Nat
  live : Nat → Option Kind
  readers : Nat

/-- What may happen next, and what is the case afterwards. -/
def Spec.Next (tag : Nat) (m : Spec) (e : Ev) (m' : Spec) : Prop :=
  match e with
  | .borrowed .read g => (∀ i, m.live i ≠ some .write) ∧ m.live g = none ∧ m' = ⟨m.v, fun i => if i = g then some .read else m.live i, m.readers + 1⟩
  | .borrowed .write g => (∀ i, m.live i = none) ∧ m' = ⟨m.v, fun i => if i = g then some .write else m.live i, m.readers⟩
  | .refused .read => (∃ i, m.live i = some .write) ∧ m' = m
  | .refused .write => (∃ i, m.live i ≠ none) ∧ m' = m
  | .wrongRoot root => root ≠ tag ∧ m' = m
  | .overflow => m.readers = 2 ^ 32 - 1 ∧ m' = m
  | .read g v => m.live g ≠ none ∧ v = m.v ∧ m' = m
  | .wrote g v => m.live g = some .write ∧ m' = { m with v := v }
  | .ended g => m.live g ≠ none ∧
      m' = ⟨m.v, fun i => if i = g then none else m.live i, if m.live g = some .read then m.readers - 1 else m.readers⟩

def Spec.Replay (tag : Nat) (m : Spec) : List Ev → Spec → Prop
  | [], m' => m' = m
  | e :: l, m' => ∃ m1, Spec.Next tag m e m1 ∧ Spec.Replay tag m1 l m'

theorem replay_append {tag : Nat} : ∀ (l l' : List Ev) {m m1 m2 : Spec}, Spec.Replay tag m l m1 → Spec.Replay tag m1 l' m2 → Spec.Replay tag m (l ++ l') m2
  | [], l', m, m1, m2, h, h' => by simp only [Spec.Replay] at h; subst h; exact h'
  | e :: l, l', m, m1, m2, h, h' => by
      obtain ⟨m3, h1, h2⟩ := h
      exact ⟨m3, h1, replay_append l l' h2 h'⟩

/-! ## The invariant -/

def isKind (k : Kind) (g : Guard) : Bool := decide (g.kind = k ∧ g.phase ≠ .gone)

def isDropping (g : Guard) : Bool := match g.phase with | .dropping _ => true | _ => false

/-- What the specification says about a guard. -/
def view : Option Guard → Option Kind
  | some g => if g.phase = .gone then none else some g.kind
  | none => none

structure Inv (s : St) (tag : Nat) (m : Spec) : Prop where
  tag : s.tag = tag
  val : s.val = m.v
  live : ∀ i : Nat, m.live i = view s.guards[i]?
  readers : s.readers = s.guards.countP (isKind .read)
  count : m.readers = s.readers
  small : s.readers < 2 ^ 32
  writer : s.guards.countP (isKind .write) = s.writer.toNat
  excl : s.writer = true → s.readers = 0
  /-- The guards are where the root is. -/
  here : ∀ (i : Nat) (g : Guard), s.guards[i]? = some g → g.phase ≠ .gone → g.thread = s.rootAt
  /-- One drop at a time; it has loaded what is still there. -/
  one : s.guards.countP isDropping ≤ 1
  load : ∀ (i : Nat) (g : Guard) (n : Nat), s.guards[i]? = some g → g.phase = .dropping n → n = s.readers ∧ g.kind = .read

theorem inv_new (tag v t : Nat) : Inv (St.new tag v t) tag ⟨v, fun _ => none, 0⟩ := by
  refine ⟨rfl, rfl, ?_, rfl, rfl, by show 0 < 2 ^ 32; decide, rfl, by simp [St.new], by simp [St.new], by simp [St.new], by simp [St.new]⟩
  intro i
  simp [St.new, view]

theorem busy_none {s : St} {tag : Nat} {m : Spec} (h : Inv s tag m) (hb : s.busy s.rootAt = false) :
    s.guards.countP isDropping = 0 := by
  rw [countP_zero]
  intro g hg
  obtain ⟨i, hi⟩ := List.getElem?_of_mem hg
  cases hp : g.phase with
  | live => simp [isDropping, hp]
  | gone => simp [isDropping, hp]
  | dropping n =>
    have := h.here i g hi (by rw [hp]; simp)
    unfold St.busy at hb
    rw [List.any_eq_false] at hb
    have := hb g hg
    simp_all

theorem no_dropping {s : St} (h : s.guards.countP isDropping = 0) {i : Nat} {g : Guard} {n : Nat} (hi : s.guards[i]? = some g) : g.phase ≠ .dropping n := by
  intro hp
  have := (countP_zero _ _).1 h g (List.mem_of_getElem? hi)
  simp [isDropping, hp] at this

theorem getElem?_snoc {α : Type} (l : List α) (x : α) (i : Nat) : (l ++ [x])[i]? = if i < l.length then l[i]? else if i = l.length then some x else none := by
  rw [List.getElem?_append]
  split
  · rfl
  · by_cases h : i = l.length
    · subst h; simp
    · rw [if_neg h]
      have : i - l.length ≠ 0 := by omega
      cases h1 : i - l.length
      · omega
      · simp

theorem guard_eq {s : St} {i : Nat} {g : Guard} (h : s.guard i = some g) : s.guards[i]? = some g ∧ g.phase = .live ∧ s.busy g.thread = false := by
  unfold St.guard at h
  split at h
  · rename_i g' hg
    split at h
    · rename_i hc
      cases h
      exact ⟨hg, hc.1, hc.2⟩
    · cases h
  · cases h

theorem some_writer {s : St} {tag : Nat} {m : Spec} (h : Inv s tag m) : (∃ i, m.live i = some .write) ↔ s.writer = true := by
  have hw := h.writer
  constructor
  · rintro ⟨i, hi⟩
    rw [h.live i] at hi
    cases hg : s.guards[i]? with
    | none => rw [hg] at hi; simp [view] at hi
    | some g =>
      rw [hg] at hi
      have : 0 < s.guards.countP (isKind .write) := (countP_pos _ _).2 ⟨i, g, hg, by
        unfold view at hi; unfold isKind; grind⟩
      cases hc : s.writer
      · rw [hc] at hw; simp only [Bool.toNat_false] at hw; omega
      · rfl
  · intro hc
    rw [hc] at hw
    obtain ⟨i, g, hg, hk⟩ := (countP_pos (isKind .write) s.guards).1 (by rw [hw]; decide)
    exact ⟨i, by rw [h.live i, hg]; unfold isKind at hk; unfold view; grind⟩

theorem some_reader {s : St} {tag : Nat} {m : Spec} (h : Inv s tag m) : (∃ i, m.live i = some .read) ↔ 0 < s.readers := by
  rw [h.readers, countP_pos]
  constructor
  · rintro ⟨i, hi⟩
    rw [h.live i] at hi
    cases hg : s.guards[i]? with
    | none => rw [hg] at hi; simp [view] at hi
    | some g => rw [hg] at hi; exact ⟨i, g, hg, by unfold view at hi; unfold isKind; grind⟩
  · rintro ⟨i, g, hg, hk⟩
    exact ⟨i, by rw [h.live i, hg]; unfold isKind at hk; unfold view; grind⟩

/-- A guard is added. -/
theorem inv_add {s : St} {tag : Nat} {m : Spec} (h : Inv s tag m) (hb : s.guards.countP isDropping = 0) (k : Kind) (r : Nat) (w : Bool)
    (hr : r = s.readers + if k = .read then 1 else 0) (hw : w.toNat = s.writer.toNat + if k = .write then 1 else 0)
    (hs : r < 2 ^ 32) (hx : w = true → r = 0) :
    Inv { s with readers := r, writer := w, guards := s.guards ++ [⟨k, s.rootAt, .live⟩] } tag
      ⟨m.v, fun i => if i = s.guards.length then some k else m.live i, r⟩ := by
  have hn : m.live s.guards.length = none := by rw [h.live]; simp [view]
  refine ⟨h.tag, h.val, ?_, ?_, rfl, hs, ?_, hx, ?_, ?_, ?_⟩
  · intro i
    simp only [getElem?_snoc]
    by_cases e : i = s.guards.length
    · subst e; simp [view]
    · simp only [e, if_false]
      rw [h.live i]
      split
      · rfl
      · rw [List.getElem?_eq_none (by omega)]
  · simp only [List.countP_append, List.countP_cons, List.countP_nil, isKind]
    rw [hr, h.readers]
    cases k <;> simp
  · simp only [List.countP_append, List.countP_cons, List.countP_nil, isKind]
    rw [hw, ← h.writer]
    cases k <;> simp
  · intro i g hi hp
    simp only [getElem?_snoc] at hi
    split at hi
    · exact h.here i g hi hp
    · split at hi
      · cases hi; rfl
      · cases hi
  · simp only [List.countP_append, List.countP_cons, List.countP_nil, hb]
    simp [isDropping]
  · intro i g n hi hp
    simp only [getElem?_snoc] at hi
    split at hi
    · exact absurd hp (no_dropping hb hi)
    · split at hi
      · cases hi; cases hp
      · cases hi

theorem mayUse_eq {s : St} {t : Nat} (h : s.mayUse t s.tag = true) : s.rootAt = t ∧ s.busy t = false := by
  simp only [St.mayUse, Bool.and_eq_true, Bool.or_eq_true, decide_eq_true_eq, Bool.not_eq_true'] at h
  exact ⟨h.1.resolve_left (fun c => c rfl), h.2⟩

theorem live_le {s : St} : s.guards.countP (isKind .read) ≤ s.guards.countP (fun g => decide (g.phase ≠ .gone)) := by
  apply List.countP_mono_left
  intro g _ hg
  simp only [isKind, decide_eq_true_eq] at hg ⊢
  exact hg.2

theorem inv_borrow {debug : Bool} {s : St} {tag : Nat} {m : Spec} (h : Inv s tag m) {t root : Nat} (hu : s.mayUse t root = true)
    (ha : debug = true ∨ s.guards.countP (fun g => decide (g.phase ≠ .gone)) + 1 < 2 ^ 32) :
    ∃ m', Spec.Replay tag m (s.borrow debug t root).2 m' ∧ Inv (s.borrow debug t root).1 tag m' := by
  unfold St.borrow
  by_cases c1 : root ≠ s.tag
  · rw [if_pos c1]
    exact ⟨m, ⟨m, ⟨by rw [← h.tag]; exact c1, rfl⟩, rfl⟩, h⟩
  · rw [if_neg c1]
    have c1 : root = s.tag := by omega
    subst c1
    obtain ⟨rfl, hb⟩ := mayUse_eq hu
    have hb := busy_none h hb
    by_cases c2 : s.writer = true
    · rw [if_pos c2]
      exact ⟨m, ⟨m, ⟨(some_writer h).2 c2, rfl⟩, rfl⟩, h⟩
    · rw [if_neg c2]
      have c2 : s.writer = false := by simpa using c2
      by_cases c3 : s.readers + 1 < 2 ^ 32
      · rw [if_pos c3]
        refine ⟨_, ⟨_, ⟨?_, ?_, rfl⟩, rfl⟩, ?_⟩
        · intro i hi
          have := (some_writer h).1 ⟨i, hi⟩
          rw [c2] at this; cases this
        · rw [h.live]; simp [view]
        · have := inv_add h hb .read (s.readers + 1) s.writer (by simp) (by simp) c3 (by rw [c2]; simp)
          rw [h.count]
          exact this
      · rw [if_neg c3]
        by_cases c4 : debug = true
        · rw [if_pos c4]
          refine ⟨m, ⟨m, ⟨?_, rfl⟩, rfl⟩, h⟩
          have := h.small
          rw [h.count]
          omega
        · exfalso
          rcases ha with e | e
          · exact c4 e
          · have := live_le (s := s)
            have := h.readers
            omega

theorem inv_borrowMut {s : St} {tag : Nat} {m : Spec} (h : Inv s tag m) {t root : Nat} (hu : s.mayUse t root = true) :
    ∃ m', Spec.Replay tag m (s.borrowMut t root).2 m' ∧ Inv (s.borrowMut t root).1 tag m' := by
  unfold St.borrowMut
  by_cases c1 : root ≠ s.tag
  · rw [if_pos c1]
    exact ⟨m, ⟨m, ⟨by rw [← h.tag]; exact c1, rfl⟩, rfl⟩, h⟩
  · rw [if_neg c1]
    have c1 : root = s.tag := by omega
    subst c1
    obtain ⟨rfl, hb⟩ := mayUse_eq hu
    have hb := busy_none h hb
    by_cases c2 : s.writer = true
    · rw [if_pos c2]
      obtain ⟨i, hi⟩ := (some_writer h).2 c2
      exact ⟨m, ⟨m, ⟨⟨i, by rw [hi]; simp⟩, rfl⟩, rfl⟩, h⟩
    · rw [if_neg c2]
      have c2 : s.writer = false := by simpa using c2
      by_cases c3 : s.readers ≠ 0
      · rw [if_pos c3]
        obtain ⟨i, hi⟩ := (some_reader h).2 (by omega)
        exact ⟨m, ⟨m, ⟨⟨i, by rw [hi]; simp⟩, rfl⟩, rfl⟩, h⟩
      · rw [if_neg c3]
        have c3 : s.readers = 0 := by omega
        refine ⟨_, ⟨_, ⟨?_, rfl⟩, rfl⟩, ?_⟩
        · intro i
          cases hi : m.live i with
          | none => rfl
          | some k =>
            cases k
            · have := (some_reader h).1 ⟨i, hi⟩; omega
            · have := (some_writer h).1 ⟨i, hi⟩; rw [c2] at this; cases this
        · have := inv_add h hb .write s.readers true (by simp) (by rw [c2]; simp) h.small (fun _ => c3)
          rw [h.count]
          exact this

/-- A guard is over. -/
theorem inv_end {s : St} {tag : Nat} {m : Spec} (h : Inv s tag m) {i : Nat} {g : Guard} (hi : s.guards[i]? = some g) (hp : g.phase ≠ .gone)
    (hd : ∀ j, j ≠ i → ∀ g' n, s.guards[j]? = some g' → g'.phase ≠ .dropping n) (r : Nat) (w : Bool)
    (hr : r = s.readers - if g.kind = .read then 1 else 0) (hw : w = if g.kind = .write then false else s.writer) :
    Spec.Replay tag m [.ended i] ⟨m.v, fun j => if j = i then none else m.live j, r⟩ ∧
    Inv { s with readers := r, writer := w, guards := s.guards.set i { g with phase := .gone } } tag
      ⟨m.v, fun j => if j = i then none else m.live j, r⟩ := by
  have hlive : m.live i = some g.kind := by rw [h.live, hi]; simp [view, hp]
  have c1 := countP_set (isKind .read) s.guards i g { g with phase := .gone } hi
  have c2 := countP_set (isKind .write) s.guards i g { g with phase := .gone } hi
  have c3 := countP_set isDropping s.guards i g { g with phase := .gone } hi
  have hread := h.readers
  have hwrite := h.writer
  have hsm := h.small
  refine ⟨⟨_, ⟨by rw [hlive]; simp, ?_⟩, rfl⟩, h.tag, h.val, ?_, ?_, rfl, ?_, ?_, ?_, ?_, ?_, ?_⟩
  · congr 1
    rw [hr, hlive, h.count]
    cases g.kind <;> simp
  · intro j
    by_cases e : j = i
    · subst e
      simp only [if_true, getElem?_set_self' hi]
      rfl
    · simp only [e, if_false]
      rw [List.getElem?_set_ne (fun x => e x.symm)]
      exact h.live j
  · simp only
    rw [hr, h.readers]
    cases hk : g.kind <;> simp [isKind, hk, hp] at c1 ⊢ <;> omega
  · simp only; rw [hr]; omega
  · simp only
    rw [hw]
    rcases (by cases g.kind <;> simp : g.kind = .read ∨ g.kind = .write) with hk | hk
    · have b1 : (isKind .write g).toNat = 0 := by simp [isKind, hk]
      have b2 : (isKind .write { g with phase := .gone }).toNat = 0 := by simp [isKind]
      rw [if_neg (by rw [hk]; simp)]
      omega
    · have b1 : (isKind .write g).toNat = 1 := by simp [isKind, hk, hp]
      have b2 : (isKind .write { g with phase := .gone }).toNat = 0 := by simp [isKind]
      have : s.writer.toNat ≤ 1 := Bool.toNat_le _
      rw [if_pos hk]
      show (s.guards.set i { g with phase := .gone }).countP (isKind .write) = 0
      omega
  · simp only
    intro hc
    rw [hw] at hc
    cases hk : g.kind
    · simp [hk] at hc
      have := h.excl hc
      omega
    · simp [hk] at hc
  · intro j g' hj hp'
    simp only [List.getElem?_set] at hj
    split at hj
    · split at hj
      · cases hj; exact absurd rfl hp'
      · cases hj
    · exact h.here j g' hj hp'
  · have := h.one
    simp only
    simp [isDropping] at c3
    omega
  · intro j g' n hj hp'
    simp only [List.getElem?_set] at hj
    split at hj
    · split at hj
      · cases hj; cases hp'
      · cases hj
    · rename_i e
      exact absurd hp' (hd j (fun x => e x.symm) g' n hj)

theorem inv_step {debug : Bool} {s : St} {tag : Nat} {m : Spec} (h : Inv s tag m) (a : Act) (ha : allowed debug s a) (r : R (St × List Ev))
    (hs : step debug s a = some r) : ∃ s' e, r = .ok (s', e) ∧ ∃ m', Spec.Replay tag m e m' ∧ Inv s' tag m' := by
  cases a with
  | borrow t root =>
    simp only [step] at hs
    split at hs
    · rename_i hu
      cases hs
      exact ⟨_, _, rfl, inv_borrow h hu ha⟩
    · cases hs
  | borrowMut t root =>
    simp only [step] at hs
    split at hs
    · rename_i hu
      cases hs
      exact ⟨_, _, rfl, inv_borrowMut h hu⟩
    · cases hs
  | read i =>
    simp only [step, Option.map_eq_some_iff] at hs
    obtain ⟨g, hg, rfl⟩ := hs
    obtain ⟨h1, h2, _⟩ := guard_eq hg
    refine ⟨_, _, rfl, m, ⟨m, ⟨?_, h.val, rfl⟩, rfl⟩, h⟩
    rw [h.live, h1]; simp [view, h2]
  | write i v =>
    simp only [step] at hs
    split at hs
    · rename_i g hg
      split at hs
      · rename_i hk
        cases hs
        obtain ⟨h1, h2, _⟩ := guard_eq hg
        refine ⟨_, _, rfl, { m with v := v }, ⟨_, ⟨?_, rfl⟩, rfl⟩, ?_⟩
        · rw [h.live, h1]; simp [view, h2, hk]
        · exact ⟨h.tag, rfl, h.live, h.readers, h.count, h.small, h.writer, h.excl, h.here, h.one, h.load⟩
      · cases hs
    · cases hs
  | drop i =>
    simp only [step, Option.map_eq_some_iff] at hs
    obtain ⟨g, hg, rfl⟩ := hs
    obtain ⟨h1, h2, h3⟩ := guard_eq hg
    have hth := h.here i g h1 (by rw [h2]; simp)
    rw [hth] at h3
    have hb := busy_none h h3
    refine ⟨(s.drop i g).1, (s.drop i g).2, rfl, ?_⟩
    have hk : g.kind = .read ∨ g.kind = .write := by cases g.kind <;> simp
    rcases hk with hk | hk
    · have hdr : s.drop i g = ({ s with guards := s.guards.set i { g with phase := .dropping s.readers } }, []) := by
        unfold St.drop; split <;> simp_all
      rw [hdr]
      refine ⟨m, rfl, ?_⟩
      have c1 := countP_set (isKind .read) s.guards i g { g with phase := .dropping s.readers } h1
      have c2 := countP_set (isKind .write) s.guards i g { g with phase := .dropping s.readers } h1
      have c3 := countP_set isDropping s.guards i g { g with phase := .dropping s.readers } h1
      refine ⟨h.tag, h.val, ?_, ?_, h.count, h.small, ?_, h.excl, ?_, ?_, ?_⟩
      · intro j
        by_cases e : j = i
        · subst e
          rw [h.live]
          simp only [getElem?_set_self' h1, h1, view, h2]
          simp
        · simp only
          rw [List.getElem?_set_ne (fun x => e x.symm)]
          exact h.live j
      · simp [isKind, h2] at c1
        have := h.readers
        show s.readers = (s.guards.set i { g with phase := .dropping s.readers }).countP (isKind .read)
        omega
      · simp only [← h.writer]
        simp [isKind, h2] at c2
        omega
      · intro j g' hj hp'
        simp only [List.getElem?_set] at hj
        split at hj
        · split at hj
          · cases hj; exact hth
          · cases hj
        · exact h.here j g' hj hp'
      · simp only
        simp [isDropping, h2] at c3
        omega
      · intro j g' n hj hp'
        simp only [List.getElem?_set] at hj
        split at hj
        · split at hj
          · cases hj; cases hp'; exact ⟨rfl, hk⟩
          · cases hj
        · exact absurd hp' (no_dropping hb hj)
    · have hdr : s.drop i g = ({ s with writer := false, guards := s.guards.set i { g with phase := .gone } }, [.ended i]) := by
        unfold St.drop; split <;> simp_all
      rw [hdr]
      have := inv_end h h1 (by rw [h2]; simp) (fun j _ g' n hj => no_dropping hb hj) s.readers false (by simp [hk]) (by simp [hk])
      exact ⟨_, this.1, this.2⟩
  | dropEnd i =>
    simp only [step] at hs
    split at hs
    · rename_i g hg
      split at hs
      · rename_i n hp
        cases hs
        obtain ⟨rfl, hk⟩ := h.load i g n hg hp
        have hpos : 0 < s.readers := by
          rw [h.readers]
          exact (countP_pos _ _).2 ⟨i, g, hg, by simp [isKind, hk, hp]⟩
        unfold St.dropEnd
        rw [if_pos hpos]
        refine ⟨_, _, rfl, ?_⟩
        have hd : ∀ j, j ≠ i → ∀ g' n, s.guards[j]? = some g' → g'.phase ≠ .dropping n := by
          intro j hj g' n hg' hp'
          have c3 := countP_set isDropping s.guards i g { g with phase := .gone } hg
          have : 0 < (s.guards.set i { g with phase := .gone }).countP isDropping :=
            (countP_pos _ _).2 ⟨j, g', by rw [List.getElem?_set_ne (fun x => hj x.symm)]; exact hg', by simp [isDropping, hp']⟩
          simp [isDropping, hp] at c3
          have := h.one
          omega
        have := inv_end h hg (by rw [hp]; simp) hd (s.readers - 1) s.writer (by simp [hk]) (by simp [hk])
        exact ⟨_, this.1, this.2⟩
      · cases hs
    · cases hs
  | send i t => exact absurd ha id
  | moveRoot t =>
    simp only [step] at hs
    split at hs
    · rename_i hall
      cases hs
      refine ⟨_, _, rfl, m, rfl, h.tag, h.val, h.live, h.readers, h.count, h.small, h.writer, h.excl, ?_, h.one, h.load⟩
      intro i g hi hp
      rw [List.all_eq_true] at hall
      have := hall g (List.mem_of_getElem? hi)
      simp only [decide_eq_true_eq] at this
      exact absurd this hp
    · cases hs

theorem run_inv {debug : Bool} {tag v t : Nat} {s : St} {tr : List Ev} (h : Run debug tag v t s tr) :
    ∃ m, Spec.Replay tag ⟨v, fun _ => none, 0⟩ tr m ∧ Inv s tag m := by
  induction h with
  | init => exact ⟨_, rfl, inv_new tag v t⟩
  | step h1 h2 h3 ih =>
    obtain ⟨m, h4, h5⟩ := ih
    obtain ⟨s', e, he, m', h6, h7⟩ := inv_step h5 _ h2 _ h3
    cases he
    exact ⟨m', replay_append _ _ h4 h6, h7⟩

/-! ## Theorems -/

/-- **C60 (e).**  As long as guards stay in their thread: a cell is borrowed for reading exactly when there is no guard for writing, for
writing exactly when there is no guard, and otherwise the borrow panics and changes nothing; it also panics exactly with another root.
What is read through a guard is what was last written, and no internal check fails. -/
theorem C60_cell {debug : Bool} {tag v t : Nat} {s : St} {tr : List Ev} (h : Run debug tag v t s tr) :
    (∃ m, Spec.Replay tag ⟨v, fun _ => none, 0⟩ tr m) ∧ ∀ a, allowed debug s a → step debug s a ≠ some .panic := by
  obtain ⟨m, h1, h2⟩ := run_inv h
  refine ⟨⟨m, h1⟩, ?_⟩
  intro a ha hs
  obtain ⟨s', e, he, _⟩ := inv_step h2 a ha _ hs
  cases he

/-- **C60 (f), finding.**  The guards can be given to other threads.  Then a drop in another thread is not ordered with the borrows in the
thread that has the root, an update of the count is lost, and a writer changes the value while there is a guard for reading. -/
theorem C60_sent_guard :
    (exec true (St.new 7 5 0) [.borrow 0 7, .send 0 1, .drop 0, .borrow 0 7, .read 1, .dropEnd 0, .borrowMut 0 7, .write 2 9, .read 1]).map (·.2) =
      some [.borrowed .read 0, .borrowed .read 1, .read 1 5, .ended 0, .borrowed .write 2, .wrote 2 9, .read 1 9] := by decide

/-- The same steps without another thread: the writer is refused. -/
example : (exec true (St.new 7 5 0) [.borrow 0 7, .borrow 0 7, .drop 0, .dropEnd 0, .borrowMut 0 7, .borrow 0 8, .read 1, .drop 1, .dropEnd 1,
      .borrowMut 0 7, .borrow 0 7, .write 2 9, .drop 2, .borrow 0 7, .read 3]).map (·.2) =
    some [.borrowed .read 0, .borrowed .read 1, .ended 0, .refused .write, .wrongRoot 8, .read 1 5, .ended 1, .borrowed .write 2, .refused .read,
      .wrote 2 9, .ended 2, .borrowed .read 3, .read 3 9] := by decide

/-- The hypotheses of the theorem are met by a run. -/
example : ∃ s tr, Run false 7 5 0 s tr ∧ allowed false s (.write 0 9) ∧ .borrowed .write 0 ∈ tr := by
  refine ⟨_, _, Run.step (a := .borrowMut 0 7) .init ?_ rfl, ?_, by decide⟩ <;> exact .inr (by decide)

end Shadow.Rooted.Cell
