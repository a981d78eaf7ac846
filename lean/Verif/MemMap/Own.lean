import Verif.MemMap.Protect
import Verif.MemMap.Spec

/-!
# The invariant of the mapper
-/
namespace Shadow.MemMap

open Shadow.Base Shadow.IntervalMap

/-- The memory file and Shadow's address space hold exactly the addresses `A`: an address, its protection, and where Shadow has it. -/
structure Own (A : Nat → Prot → Nat → Prop) (s : St) : Prop where
  here : ∀ {x pr y}, A x pr y → s.shadow y = some (x, pr)
  zero : ∀ {x}, s.file x ≠ 0 → ∃ pr y, A x pr y
  tight : ∀ {y o pr}, s.shadow y = some (o, pr) → ∃ pr', A o pr' y
  long : ∀ {x pr y}, A x pr y → x < s.len

/-- The table of regions. -/
structure Table (L : List (Entry Region)) (s : St) : Prop where
  reg : s.regions = ofList L
  good : Good L
  al : Aligned s.page L

/-- The program's address space. -/
structure Prog (L : List (Entry Region)) (P : Nat → Option Map) : Prop where
  here : ∀ {x pr y}, At L x pr (some y) → P x = some ⟨.shm x, pr⟩
  there : ∀ {x pr}, At L x pr none → ∃ c, P x = some ⟨.other c, pr⟩
  all : ∀ {x m}, P x = some m → ∃ pr l, At L x pr l

structure Inv (L : List (Entry Region)) (s : St) : Prop where
  table : Table L s
  own : Own (fun x pr y => At L x pr (some y)) s
  prog : Prog L s.plugin
  heap : s.heap.1 ≤ s.heap.2 ∧ s.heap.1 % s.page = 0 ∧ s.heap.2 % s.page = 0

/-! ## Ownership -/

theorem Own.congr {A B : Nat → Prot → Nat → Prop} {s : St} (h : Own A s) (e : ∀ x pr y, A x pr y ↔ B x pr y) : Own B s :=
  ⟨fun {x pr y} g => h.here ((e x pr y).2 g), fun {x} g => by
    obtain ⟨pr, y, g⟩ := h.zero g
    exact ⟨pr, y, (e x pr y).1 g⟩, fun {y o pr} g => by
    obtain ⟨pr', g⟩ := h.tight g
    exact ⟨pr', (e o pr' y).1 g⟩, fun {x pr y} g => h.long ((e x pr y).2 g)⟩

theorem Own.state {A : Nat → Prot → Nat → Prop} {s t : St} (h : Own A s) (h1 : t.shadow = s.shadow) (h2 : t.file = s.file) (h3 : s.len ≤ t.len) : Own A t :=
  ⟨fun g => h1 ▸ h.here g, fun g => h.zero (h2 ▸ g), fun g => h.tight (h1 ▸ g), fun g => Nat.lt_of_lt_of_le (h.long g) h3⟩

/-- What is given back is no longer owned. -/
theorem Own.freed {A : Nat → Prot → Nat → Prop} {L : List (Entry Region)} {s t : St} {a b : Nat} (h : Own A s) (hf : Freed L a b s t) (hl : t.len = s.len)
    (hLA : ∀ {x y}, Loc L x y → ∃ pr, A x pr y) :
    Own (fun x pr y => A x pr y ∧ ¬ (a ≤ x ∧ x < b ∧ Loc L x y)) t := by
  refine ⟨?_, ?_, ?_, ?_⟩
  · rintro x pr y ⟨g1, g2⟩
    rw [hf.shadow' y, h.here g1]
    rintro ⟨x', h1, h2, h3⟩
    obtain ⟨pr', g3⟩ := hLA h3
    have e1 := h.here g1
    have e2 := h.here g3
    rw [e1] at e2
    cases Option.some.inj e2
    exact g2 ⟨h1, h2, h3⟩
  · intro x g
    by_cases hx : a ≤ x ∧ x < b ∧ ∃ y, Loc L x y
    · obtain ⟨h1, h2, y, h3⟩ := hx
      exact absurd (hf.file x y h1 h2 h3) g
    · rw [hf.file' x hx] at g
      obtain ⟨pr, y, g1⟩ := h.zero g
      exact ⟨pr, y, g1, fun g2 => hx ⟨g2.1, g2.2.1, y, g2.2.2⟩⟩
  · intro y o pr g
    by_cases hy : ∃ x, a ≤ x ∧ x < b ∧ Loc L x y
    · obtain ⟨x, h1, h2, h3⟩ := hy
      rw [hf.shadow x y h1 h2 h3] at g
      cases g
    · rw [hf.shadow' y hy] at g
      obtain ⟨pr', g1⟩ := h.tight g
      exact ⟨pr', g1, fun g2 => hy ⟨o, g2⟩⟩
  · rintro x pr y ⟨g1, _⟩
    rw [hl]
    exact h.long g1

/-- What the file holds after an interval was given back. -/
theorem Own.freed_file {L : List (Entry Region)} {s t : St} {a b : Nat} (h : Own (fun x pr y => At L x pr (some y)) s) (hf : Freed L a b s t) (x : Nat) :
    t.file x = if a ≤ x ∧ x < b then 0 else s.file x := by
  by_cases hx : a ≤ x ∧ x < b
  · rw [if_pos hx]
    by_cases hl : ∃ y, Loc L x y
    · obtain ⟨y, hl⟩ := hl
      exact hf.file x y hx.1 hx.2 hl
    · rw [hf.file' x (fun g => hl g.2.2)]
      by_cases hz : s.file x = 0
      · exact hz
      · obtain ⟨pr, y, g⟩ := h.zero hz
        exact absurd ⟨y, loc_iff.2 ⟨pr, g⟩⟩ hl
  · rw [if_neg hx, hf.file' x (fun g => hx ⟨g.1, g.2.1⟩)]

theorem loc_at {L : List (Entry Region)} {x y : Nat} (h : Loc L x y) : ∃ pr, (fun x pr y => At L x pr (some y)) x pr y := loc_iff.1 h

/-- A part of the file is mapped into Shadow at a free place. -/
theorem Own.add {A : Nat → Prot → Nat → Prop} {s t : St} (h : Own A s) {a b base : Nat} {pr0 : Prot} (hlen : s.len ≤ t.len ∧ b ≤ t.len)
    (hsh : t.shadow = fun y => if base ≤ y ∧ y < base + (b - a) then some (a + (y - base), pr0) else s.shadow y)
    (hfree : ∀ y, base ≤ y → y < base + (b - a) → s.shadow y = none)
    (hfile : ∀ x, ¬ (a ≤ x ∧ x < b) → t.file x = s.file x) :
    Own (fun x pr y => A x pr y ∨ (a ≤ x ∧ x < b ∧ pr = pr0 ∧ y = base + (x - a))) t := by
  refine ⟨?_, ?_, ?_, ?_⟩
  · rintro x pr y (g | ⟨g1, g2, rfl, rfl⟩)
    · rw [hsh]
      have hs := h.here g
      have : ¬ (base ≤ y ∧ y < base + (b - a)) := by
        rintro ⟨g1, g2⟩
        rw [hfree y g1 g2] at hs
        cases hs
      simp only [if_neg this]
      exact hs
    · rw [hsh]
      simp only
      rw [if_pos (by omega)]
      congr 2
      omega
  · intro x g
    by_cases hx : a ≤ x ∧ x < b
    · exact ⟨pr0, _, .inr ⟨hx.1, hx.2, rfl, rfl⟩⟩
    · rw [hfile x hx] at g
      obtain ⟨pr, y, g⟩ := h.zero g
      exact ⟨pr, y, .inl g⟩
  · intro y o pr g
    rw [hsh] at g
    simp only at g
    by_cases hy : base ≤ y ∧ y < base + (b - a)
    · rw [if_pos hy] at g
      cases Option.some.inj g
      exact ⟨pr0, .inr ⟨by omega, by omega, rfl, by omega⟩⟩
    · rw [if_neg hy] at g
      obtain ⟨pr', g⟩ := h.tight g
      exact ⟨pr', .inl g⟩
  · rintro x pr y (g | ⟨g1, g2, _, _⟩)
    · have := h.long g
      omega
    · omega

/-! ## The table -/

theorem aligned_cut {pg : Nat} {L : List (Entry Region)} (h : Aligned pg L) {a b : Nat} (ha : a % pg = 0) (hb : b % pg = 0) : Aligned pg (cut L a b) := by
  refine ⟨h.pos, ?_, ?_, ?_⟩
  all_goals
    intro q hq
    rcases mem_cut.1 hq with ⟨p, hp, h1, rfl⟩ | ⟨p, hp, h1, rfl⟩
  · exact h.s p hp
  · simp only
    rcases Nat.le_total p.1.1 b with g | g
    · rw [Nat.max_eq_right g]; exact hb
    · rw [Nat.max_eq_left g]; exact h.s p hp
  · simp only
    rcases Nat.le_total p.1.2 a with g | g
    · rw [Nat.min_eq_left g]; exact h.e p hp
    · rw [Nat.min_eq_right g]; exact ha
  · exact h.e p hp
  · exact h.base p hp
  · simp only [shift_base]
    split
    · simp
    · refine mod_add (h.base p hp) (mod_sub ?_ (h.s p hp))
      rcases Nat.le_total p.1.1 b with g | g
      · rw [Nat.max_eq_right g]; exact hb
      · rw [Nat.max_eq_left g]; exact h.s p hp

theorem aligned_put {pg : Nat} {L : List (Entry Region)} (h : Aligned pg L) {a b : Nat} (ha : a % pg = 0) (hb : b % pg = 0) {r : Region} (hr : r.base % pg = 0) :
    Aligned pg (put L a b r) := by
  have hc := aligned_cut h ha hb
  refine ⟨h.pos, ?_, ?_, ?_⟩
  all_goals
    intro q hq
    rcases mem_put.1 hq with hq | rfl
  · exact hc.s q hq
  · exact ha
  · exact hc.e q hq
  · exact hb
  · exact hc.base q hq
  · exact hr

theorem aligned_guarded {pg : Nat} {L : List (Entry Region)} (h : Aligned pg L) {a b : Nat} (ha : a % pg = 0) (hb : b % pg = 0) (pr : Prot) :
    Aligned pg (guarded L a b pr) := by
  have key : ∀ q ∈ guarded L a b pr, q.1.1 % pg = 0 ∧ q.1.2 % pg = 0 ∧ q.2.base % pg = 0 := by
    intro q hq
    obtain ⟨p, hp, hq⟩ := List.mem_flatMap.1 hq
    have h1 := h.s p hp
    have h2 := h.e p hp
    have h3 := h.base p hp
    have hmax : ∀ c, c % pg = 0 → (max p.1.1 c) % pg = 0 := by
      intro c hc
      rcases Nat.le_total p.1.1 c with g | g
      · rw [Nat.max_eq_right g]; exact hc
      · rw [Nat.max_eq_left g]; exact h1
    have hmin : ∀ c, c % pg = 0 → (min p.1.2 c) % pg = 0 := by
      intro c hc
      rcases Nat.le_total p.1.2 c with g | g
      · rw [Nat.min_eq_left g]; exact h2
      · rw [Nat.min_eq_right g]; exact hc
    rcases mem_parts.1 hq with hq | hq | hq
    · obtain ⟨_, rfl⟩ := mem_before.1 hq
      exact ⟨h1, hmin a ha, h3⟩
    · obtain ⟨_, rfl⟩ := mem_middle.1 hq
      refine ⟨hmax a ha, hmin b hb, ?_⟩
      simp only [shift_base]
      split
      · simp
      · exact mod_add h3 (mod_sub (hmax a ha) h1)
    · obtain ⟨_, rfl⟩ := mem_after'.1 hq
      refine ⟨hmax b hb, h2, ?_⟩
      simp only [shift_base]
      split
      · simp
      · exact mod_add h3 (mod_sub (hmax b hb) h1)
  exact ⟨h.pos, fun q hq => (key q hq).1, fun q hq => (key q hq).2.1, fun q hq => (key q hq).2.2⟩

/-! ## The program -/

theorem Prog.cut {L : List (Entry Region)} {P Q : Nat → Option Map} (h : Prog L P) (hL : Good L) {a b : Nat} (hab : a < b)
    (h1 : ∀ x, a ≤ x → x < b → Q x = none) (h2 : ∀ x, ¬ (a ≤ x ∧ x < b) → Q x = P x) : Prog (cut L a b) Q := by
  refine ⟨fun {x pr y} g => ?_, fun {x pr} g => ?_, fun {x m} g => ?_⟩
  · obtain ⟨g, hx⟩ := (at_cut hL hab).1 g
    rw [h2 x hx]; exact h.here g
  · obtain ⟨g, hx⟩ := (at_cut hL hab).1 g
    rw [h2 x hx]; exact h.there g
  · by_cases hx : a ≤ x ∧ x < b
    · rw [h1 x hx.1 hx.2] at g; cases g
    · rw [h2 x hx] at g
      obtain ⟨pr, l, g⟩ := h.all g
      exact ⟨pr, l, (at_cut hL hab).2 ⟨g, hx⟩⟩

theorem Prog.put {L : List (Entry Region)} {P Q : Nat → Option Map} (h : Prog L P) (hL : Good L) {a b : Nat} (hab : a < b) {r : Region}
    (h1 : r.base ≠ 0 → ∀ x, a ≤ x → x < b → Q x = some ⟨.shm x, r.prot⟩) (h1' : r.base = 0 → ∀ x, a ≤ x → x < b → ∃ c, Q x = some ⟨.other c, r.prot⟩)
    (h2 : ∀ x, ¬ (a ≤ x ∧ x < b) → Q x = P x) : Prog (put L a b r) Q := by
  refine ⟨fun {x pr y} g => ?_, fun {x pr} g => ?_, fun {x m} g => ?_⟩
  · rcases (at_put hL hab).1 g with ⟨g, hx⟩ | ⟨g1, g2, rfl, g3⟩
    · rw [h2 x hx]; exact h.here g
    · by_cases hb : r.base = 0
      · rw [if_pos hb] at g3; cases g3
      · exact h1 hb x g1 g2
  · rcases (at_put hL hab).1 g with ⟨g, hx⟩ | ⟨g1, g2, rfl, g3⟩
    · rw [h2 x hx]; exact h.there g
    · by_cases hb : r.base = 0
      · exact h1' hb x g1 g2
      · rw [if_neg hb] at g3; cases g3
  · by_cases hx : a ≤ x ∧ x < b
    · exact ⟨_, _, (at_put hL hab).2 (.inr ⟨hx.1, hx.2, rfl, rfl⟩)⟩
    · rw [h2 x hx] at g
      obtain ⟨pr, l, g⟩ := h.all g
      exact ⟨pr, l, (at_put hL hab).2 (.inl ⟨g, hx⟩)⟩

theorem Prog.guarded {L : List (Entry Region)} {P Q : Nat → Option Map} (h : Prog L P) {a b : Nat} {pr : Prot}
    (h1 : ∀ x, a ≤ x → x < b → Q x = (P x).map (fun m => { m with prot := pr })) (h2 : ∀ x, ¬ (a ≤ x ∧ x < b) → Q x = P x) : Prog (guarded L a b pr) Q := by
  refine ⟨fun {x pr y} g => ?_, fun {x pr} g => ?_, fun {x m} g => ?_⟩
  · rcases at_guarded.1 g with ⟨hx, g⟩ | ⟨hx, rfl, pr0, g⟩
    · rw [h2 x hx]; exact h.here g
    · rw [h1 x hx.1 hx.2, h.here g]; rfl
  · rcases at_guarded.1 g with ⟨hx, g⟩ | ⟨hx, rfl, pr0, g⟩
    · rw [h2 x hx]; exact h.there g
    · obtain ⟨c, e⟩ := h.there g
      rw [h1 x hx.1 hx.2, e]
      exact ⟨c, rfl⟩
  · by_cases hx : a ≤ x ∧ x < b
    · rw [h1 x hx.1 hx.2] at g
      obtain ⟨m', g', _⟩ := Option.map_eq_some_iff.1 g
      obtain ⟨pr', l, g''⟩ := h.all g'
      exact ⟨pr, l, at_guarded.2 (.inr ⟨hx, rfl, pr', g''⟩)⟩
    · rw [h2 x hx] at g
      obtain ⟨pr', l, g⟩ := h.all g
      exact ⟨pr', l, at_guarded.2 (.inl ⟨hx, g⟩)⟩

/-- What the program sees at an address. -/
theorem view_eq {s t : St} {x : Nat} (h1 : t.plugin x = s.plugin x) (h2 : t.mem = s.mem) (h3 : ∀ o p, s.plugin x = some ⟨.shm o, p⟩ → t.file o = s.file o) :
    view t x = view s x := by
  unfold view
  rw [h1, h2]
  split
  · rfl
  · next o p e => rw [h3 o p e]
  · rfl

/-- The offset in the file is the address. -/
theorem Prog.off {L : List (Entry Region)} {P : Nat → Option Map} (h : Prog L P) {x o : Nat} {p : Prot} (e : P x = some ⟨.shm o, p⟩) : o = x ∧ ∃ y, At L x p (some y) := by
  obtain ⟨pr, l, g⟩ := h.all e
  cases l with
  | none =>
    obtain ⟨c, e'⟩ := h.there g
    rw [e] at e'; cases e'
  | some y =>
    have e' := h.here g
    rw [e] at e'
    cases Option.some.inj e'
    exact ⟨rfl, y, g⟩

end Shadow.MemMap
