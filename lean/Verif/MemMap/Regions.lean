import Verif.MemMap.Model

/-!
# The table of regions, address by address
-/
namespace Shadow.MemMap

open Shadow.Base Shadow.IntervalMap

/-! ## Looking up and modifying entries -/

theorem getIndex_spec {V : Type} {A B : List (Entry V)} {p : Entry V} (h : Good (A ++ p :: B)) {x : Nat} (hx : p.covers x) :
    (ofList (A ++ p :: B)).getIndex x = .ok (some A.length) := by
  have hA : ∀ q ∈ A, q.1.1 < p.1.1 := fun q hq => by
    have := h.cross hq List.mem_cons_self
    have := h.left.ne q hq
    omega
  have hB : ∀ q ∈ B, p.1.2 ≤ q.1.1 := (List.pairwise_cons.1 h.right.ord).1
  unfold Entry.covers at hx
  unfold IMap.getIndex
  by_cases e : p.1.1 = x
  · have hs : search (ofList (A ++ p :: B)).starts x = (true, A.length) := by
      unfold ofList
      rw [List.map_append, search_append]
      · simp [e]
      · intro y hy
        obtain ⟨q, hq, rfl⟩ := List.mem_map.1 hy
        have := hA q hq
        omega
      · intro y hy
        obtain ⟨q, hq, rfl⟩ := List.mem_map.1 hy
        rcases List.mem_cons.1 hq with rfl | hq
        · omega
        · have := hB q hq
          omega
    rw [hs]
    rfl
  · have hs : search (ofList (A ++ p :: B)).starts x = ((B.map (fun p => p.1.1))[0]? == some x, A.length + 1) := by
      have : A ++ p :: B = (A ++ [p]) ++ B := by simp
      rw [this]
      unfold ofList
      rw [List.map_append, search_append]
      · simp
      · intro y hy
        obtain ⟨q, hq, rfl⟩ := List.mem_map.1 hy
        rcases List.mem_append.1 hq with hq | hq
        · have := hA q hq
          omega
        · rw [List.mem_singleton] at hq
          subst hq
          omega
      · intro y hy
        obtain ⟨q, hq, rfl⟩ := List.mem_map.1 hy
        have := hB q hq
        omega
    have hf : ((B.map (fun p => p.1.1))[0]? == some x) = false := by
      cases B with
      | nil => rfl
      | cons q B =>
        have := hB q List.mem_cons_self
        have hne : q.1.1 ≠ x := by omega
        simpa using hne
    rw [hs, hf]
    obtain ⟨_, g2, _⟩ := get_at (L := A ++ p :: B) (i := A.length) (p := p) (by simp)
    simp only [Bool.false_eq_true, if_false, Nat.add_sub_cancel, g2, R.unwrap_some, R.bind_ok]
    rw [if_neg (by omega), if_pos hx.2]
    rfl

theorem modify_spec {V : Type} {A B : List (Entry V)} {p : Entry V} (h : Good (A ++ p :: B)) {x : Nat} (hx : p.covers x) (f : V → V) :
    modify (ofList (A ++ p :: B)) x f = .ok (ofList (A ++ (p.1, f p.2) :: B)) := by
  obtain ⟨_, _, g3⟩ := get_at (L := A ++ p :: B) (i := A.length) (p := p) (by simp)
  unfold modify
  rw [getIndex_spec h hx]
  simp only [R.bind_ok, R.unwrap_some, g3]
  unfold ofList
  simp [R.pure_eq]

theorem covers_unique {V : Type} {L : List (Entry V)} (h : Good L) {p q : Entry V} (hp : p ∈ L) (hq : q ∈ L) {x : Nat} (h1 : p.covers x) (h2 : q.covers x) :
    p = q := by
  unfold Entry.covers at h1 h2
  induction L with
  | nil => cases hp
  | cons a L ih =>
    have hc := List.pairwise_cons.1 h.ord
    rcases List.mem_cons.1 hp with rfl | hp'
    · rcases List.mem_cons.1 hq with rfl | hq'
      · rfl
      · have := hc.1 q hq'
        omega
    · rcases List.mem_cons.1 hq with rfl | hq'
      · have := hc.1 p hp'
        omega
      · exact ih ⟨fun y hy => h.ne y (List.mem_cons_of_mem _ hy), hc.2⟩ hp' hq'

theorem get_some {V : Type} {L : List (Entry V)} (h : Good L) {p : Entry V} (hp : p ∈ L) {x : Nat} (hx : p.covers x) :
    (ofList L).get x = .ok (some p) := by
  obtain ⟨r, h1, h2, h3⟩ := get_spec h x
  rw [h1]
  cases r with
  | none => exact absurd hx (h3 rfl p hp)
  | some q => rw [covers_unique h (h2 q rfl).1 hp (h2 q rfl).2 hx]

theorem get_none {V : Type} {L : List (Entry V)} (h : Good L) {x : Nat} (hx : ∀ p ∈ L, ¬ p.covers x) : (ofList L).get x = .ok none := by
  obtain ⟨r, h1, h2, h3⟩ := get_spec h x
  rw [h1]
  cases r with
  | none => rfl
  | some q => exact absurd (h2 q rfl).2 (hx q (h2 q rfl).1)

theorem find_spec {V : Type} {L : List (Entry V)} (h : Good L) {p : Entry V} (hp : p ∈ L) {x : Nat} (hx : p.covers x) :
    find (ofList L) x = .ok p := by
  unfold find
  rw [get_some h hp hx]
  rfl

theorem find_none {V : Type} {L : List (Entry V)} (h : Good L) {x : Nat} (hx : ∀ p ∈ L, ¬ p.covers x) : find (ofList L) x = .panic := by
  unfold find
  rw [get_none h hx]
  rfl

/-! ## Addresses -/

/-- The address is in a region with this protection, and (unless none) it is at this address in Shadow. -/
def At (L : List (Entry Region)) (x : Nat) (pr : Prot) (l : Option Nat) : Prop :=
  ∃ p ∈ L, p.covers x ∧ p.2.prot = pr ∧ l = if p.2.base = 0 then none else some (p.2.base + (x - p.1.1))

theorem At.unique {L : List (Entry Region)} (h : Good L) {x : Nat} {pr pr' : Prot} {l l' : Option Nat} (h1 : At L x pr l) (h2 : At L x pr' l') :
    pr = pr' ∧ l = l' := by
  obtain ⟨p, hp, hc, rfl, rfl⟩ := h1
  obtain ⟨q, hq, hd, rfl, rfl⟩ := h2
  rw [covers_unique h hp hq hc hd]
  exact ⟨rfl, rfl⟩

theorem shift_zero (r : Region) : shift 0 r = r := by
  unfold shift; split <;> rfl

@[simp] theorem shift_base (d : Nat) (r : Region) : (shift d r).base = if r.base = 0 then 0 else r.base + d := by
  unfold shift; split <;> simp [*]

@[simp] theorem shift_prot (d : Nat) (r : Region) : (shift d r).prot = r.prot := by
  unfold shift; split <;> rfl

/-- What is left of an entry after an address. -/
def after' (e : Nat) (p : Entry Region) : List (Entry Region) :=
  if e < p.1.2 then [((max p.1.1 e, p.1.2), shift (max p.1.1 e - p.1.1) p.2)] else []

/-- The table without the addresses of an interval. -/
def cut (L : List (Entry Region)) (a b : Nat) : List (Entry Region) := L.flatMap (before a) ++ L.flatMap (after' b)

theorem mem_after' {e : Nat} {p q : Entry Region} : q ∈ after' e p ↔ e < p.1.2 ∧ q = ((max p.1.1 e, p.1.2), shift (max p.1.1 e - p.1.1) p.2) := by
  unfold after'; split <;> simp [*]

theorem mem_cut {L : List (Entry Region)} {a b : Nat} {q : Entry Region} : q ∈ cut L a b ↔
    (∃ p ∈ L, p.1.1 < a ∧ q = ((p.1.1, min p.1.2 a), p.2)) ∨ ∃ p ∈ L, b < p.1.2 ∧ q = ((max p.1.1 b, p.1.2), shift (max p.1.1 b - p.1.1) p.2) := by
  unfold cut
  rw [List.mem_append, List.mem_flatMap, List.mem_flatMap]
  simp only [mem_before, mem_after']

theorem at_cut {L : List (Entry Region)} (_hL : Good L) {a b : Nat} (_hab : a < b) {x : Nat} {pr : Prot} {l : Option Nat} :
    At (cut L a b) x pr l ↔ At L x pr l ∧ ¬ (a ≤ x ∧ x < b) := by
  unfold At
  constructor
  · rintro ⟨q, hq, hc, rfl, rfl⟩
    rcases mem_cut.1 hq with ⟨p, hp, h1, rfl⟩ | ⟨p, hp, h1, rfl⟩
    · unfold Entry.covers at hc
      simp only at hc
      exact ⟨⟨p, hp, ⟨hc.1, by omega⟩, rfl, rfl⟩, by omega⟩
    · unfold Entry.covers at hc
      simp only at hc
      refine ⟨⟨p, hp, ⟨by omega, by omega⟩, by simp, ?_⟩, by omega⟩
      by_cases hb : p.2.base = 0
      · simp [hb]
      · simp [hb]
        omega
  · rintro ⟨⟨p, hp, hc, rfl, rfl⟩, hx⟩
    unfold Entry.covers at hc
    by_cases h1 : x < a
    · exact ⟨_, mem_cut.2 (.inl ⟨p, hp, by omega, rfl⟩), ⟨hc.1, by simp only; omega⟩, rfl, rfl⟩
    · refine ⟨_, mem_cut.2 (.inr ⟨p, hp, by omega, rfl⟩), ⟨by simp only; omega, hc.2⟩, by simp, ?_⟩
      by_cases hb : p.2.base = 0
      · simp [hb]
      · simp [hb]
        omega

theorem good_append {V : Type} {A B : List (Entry V)} (h1 : Good A) (h2 : Good B) (h : ∀ p ∈ A, ∀ q ∈ B, p.1.2 ≤ q.1.1) : Good (A ++ B) := by
  refine ⟨fun p hp => ?_, List.pairwise_append.2 ⟨h1.ord, h2.ord, h⟩⟩
  rcases List.mem_append.1 hp with hp | hp
  · exact h1.ne p hp
  · exact h2.ne p hp

theorem good_before {V : Type} {L : List (Entry V)} (h : Good L) (a : Nat) : Good (L.flatMap (before a)) := by
  refine ⟨fun q hq => ?_, pieces_pairwise ?_ ?_ h.ord⟩
  · obtain ⟨p, hp, hq⟩ := List.mem_flatMap.1 hq
    obtain ⟨h1, rfl⟩ := mem_before.1 hq
    have := h.ne p hp
    simp only
    omega
  · intro p q hq
    obtain ⟨h1, rfl⟩ := mem_before.1 hq
    simp only
    omega
  · intro p
    unfold before; split <;> simp

theorem good_after' {L : List (Entry Region)} (h : Good L) (b : Nat) : Good (L.flatMap (after' b)) := by
  refine ⟨fun q hq => ?_, pieces_pairwise ?_ ?_ h.ord⟩
  · obtain ⟨p, hp, hq⟩ := List.mem_flatMap.1 hq
    obtain ⟨h1, rfl⟩ := mem_after'.1 hq
    have := h.ne p hp
    simp only
    omega
  · intro p q hq
    obtain ⟨h1, rfl⟩ := mem_after'.1 hq
    simp only
    omega
  · intro p
    unfold after'; split <;> simp

theorem good_cut {L : List (Entry Region)} (h : Good L) {a b : Nat} (hab : a < b) : Good (cut L a b) := by
  refine good_append (good_before h a) (good_after' h b) ?_
  intro q hq r hr
  obtain ⟨p, hp, hq⟩ := List.mem_flatMap.1 hq
  obtain ⟨_, rfl⟩ := mem_before.1 hq
  obtain ⟨p', hp', hr⟩ := List.mem_flatMap.1 hr
  obtain ⟨_, rfl⟩ := mem_after'.1 hr
  simp only
  omega

/-- Entries that do not meet the interval stay as they are. -/
theorem cut_disjoint {L : List (Entry Region)} {a b : Nat} (h : Good L) (hab : a < b) (hd : ∀ x, a ≤ x → x < b → ∀ p ∈ L, ¬ p.covers x) {q : Entry Region} :
    q ∈ cut L a b ↔ q ∈ L := by
  have hd' : ∀ p ∈ L, p.1.2 ≤ a ∨ b ≤ p.1.1 := by
    intro p hp
    have := h.ne p hp
    by_cases h1 : p.1.2 ≤ a
    · exact .inl h1
    · by_cases h2 : b ≤ p.1.1
      · exact .inr h2
      · exact absurd ⟨by omega, by omega⟩ (hd (max a p.1.1) (by omega) (by omega) p hp)
  rw [mem_cut]
  constructor
  · rintro (⟨p, hp, h1, rfl⟩ | ⟨p, hp, h1, rfl⟩)
    · have hn := h.ne p hp
      rcases hd' p hp with h2 | h2
      · rw [Nat.min_eq_left h2]; exact hp
      · omega
    · have hn := h.ne p hp
      rcases hd' p hp with h2 | h2
      · omega
      · rw [Nat.max_eq_left h2, Nat.sub_self, shift_zero]; exact hp
  · intro hq
    have hn := h.ne q hq
    rcases hd' q hq with h2 | h2
    · refine .inl ⟨q, hq, by omega, ?_⟩
      rw [Nat.min_eq_left h2]
    · refine .inr ⟨q, hq, by omega, ?_⟩
      rw [Nat.max_eq_left h2, Nat.sub_self, shift_zero]

/-! ## Insertion into a gap -/

/-- The table with a region put into an interval, in place of what was there. -/
def put (L : List (Entry Region)) (a b : Nat) (r : Region) : List (Entry Region) :=
  L.flatMap (before a) ++ ((a, b), r) :: L.flatMap (after' b)

theorem mem_put {L : List (Entry Region)} {a b : Nat} {r : Region} {q : Entry Region} : q ∈ put L a b r ↔ q ∈ cut L a b ∨ q = ((a, b), r) := by
  unfold put cut
  simp only [List.mem_append, List.mem_cons]
  constructor
  · rintro (h | h | h)
    · exact .inl (.inl h)
    · exact .inr h
    · exact .inl (.inr h)
  · rintro ((h | h) | h)
    · exact .inl h
    · exact .inr (.inr h)
    · exact .inr (.inl h)

theorem good_put {L : List (Entry Region)} (h : Good L) {a b : Nat} (hab : a < b) (r : Region) : Good (put L a b r) := by
  unfold put
  refine good_append (good_before h a) ?_ ?_
  · rw [← List.singleton_append]
    refine good_append ⟨fun q hq => ?_, List.pairwise_singleton _ _⟩ (good_after' h b) ?_
    · rw [List.mem_singleton] at hq
      subst hq
      exact hab
    · intro q hq r hr
      rw [List.mem_singleton] at hq
      subst hq
      obtain ⟨p', hp', hr⟩ := List.mem_flatMap.1 hr
      obtain ⟨_, rfl⟩ := mem_after'.1 hr
      simp only
      omega
  · intro q hq r hr
    obtain ⟨p, hp, hq⟩ := List.mem_flatMap.1 hq
    obtain ⟨_, rfl⟩ := mem_before.1 hq
    rcases List.mem_cons.1 hr with rfl | hr
    · simp only
      omega
    · obtain ⟨p', hp', hr⟩ := List.mem_flatMap.1 hr
      obtain ⟨_, rfl⟩ := mem_after'.1 hr
      simp only
      omega

theorem at_put {L : List (Entry Region)} (hL : Good L) {a b : Nat} (hab : a < b) {r : Region} {x : Nat} {pr : Prot} {l : Option Nat} :
    At (put L a b r) x pr l ↔ (At L x pr l ∧ ¬ (a ≤ x ∧ x < b)) ∨
      (a ≤ x ∧ x < b ∧ r.prot = pr ∧ l = if r.base = 0 then none else some (r.base + (x - a))) := by
  rw [← at_cut hL hab]
  unfold At
  constructor
  · rintro ⟨q, hq, hc, rfl, rfl⟩
    rcases mem_put.1 hq with hq | rfl
    · exact .inl ⟨q, hq, hc, rfl, rfl⟩
    · exact .inr ⟨hc.1, hc.2, rfl, rfl⟩
  · rintro (⟨q, hq, hc, rfl, rfl⟩ | ⟨h1, h2, rfl, rfl⟩)
    · exact ⟨q, mem_put.2 (.inl hq), hc, rfl, rfl⟩
    · exact ⟨((a, b), r), mem_put.2 (.inr rfl), ⟨h1, h2⟩, rfl, rfl⟩

/-- Insertion where nothing is in the way. -/
theorem insert_gap {L : List (Entry Region)} (h : Good L) {a b : Nat} (hab : a < b) (hd : ∀ p ∈ L, p.1.2 ≤ a ∨ b ≤ p.1.1) (r : Region) :
    (ofList L).insert a b r = .ok (ofList (put L a b r), []) := by
  have h1 : L.filterMap (change a b) = [] := filterMap_nil_of (fun p hp => by
    unfold change
    rw [if_pos (hd p hp)])
  have h2 : L.flatMap (after b) = L.flatMap (after' b) := by
    have : ∀ p ∈ L, after b p = after' b p := by
      intro p hp
      have hn := h.ne p hp
      unfold after after'
      rcases hd p hp with h3 | h3
      · rw [if_neg (by omega), if_neg (by omega)]
      · rw [Nat.max_eq_left h3, Nat.sub_self, shift_zero]
    clear hd h1 h
    induction L with
    | nil => rfl
    | cons p L ih =>
      rw [List.flatMap_cons, List.flatMap_cons, this p List.mem_cons_self, ih (fun q hq => this q (List.mem_cons_of_mem _ hq))]
  unfold IMap.insert
  rw [splice_spec h hab, h1]
  unfold spliced put
  rw [h2]
  simp

theorem gap_of {L : List (Entry Region)} (h : Good L) {a b : Nat} (hab : a < b) (hd : ∀ x, a ≤ x → x < b → ∀ p ∈ L, ¬ p.covers x) :
    ∀ p ∈ L, p.1.2 ≤ a ∨ b ≤ p.1.1 := by
  intro p hp
  have := h.ne p hp
  by_cases h1 : p.1.2 ≤ a
  · exact .inl h1
  · by_cases h2 : b ≤ p.1.1
    · exact .inr h2
    · exact absurd ⟨by omega, by omega⟩ (hd (max a p.1.1) (by omega) (by omega) p hp)

end Shadow.MemMap
