import Verif.MemMap.Clear

/-!
# Changing the protection of an interval: what the loop of `handle_mprotect` does
-/
namespace Shadow.MemMap

open Shadow.Base Shadow.IntervalMap

/-- The part of an entry that is in the interval, with the new protection. -/
def middle (a b : Nat) (pr : Prot) (p : Entry Region) : List (Entry Region) :=
  if p.1.1 < b ∧ a < p.1.2 then [((max p.1.1 a, min p.1.2 b), shift (max p.1.1 a - p.1.1) { p.2 with prot := pr })] else []

def parts (a b : Nat) (pr : Prot) (p : Entry Region) : List (Entry Region) := before a p ++ (middle a b pr p ++ after' b p)

/-- The table with another protection for an interval. -/
def guarded (L : List (Entry Region)) (a b : Nat) (pr : Prot) : List (Entry Region) := L.flatMap (parts a b pr)

def rest (a b : Nat) (p : Entry Region) : List (Entry Region) := before a p ++ after b p

theorem mem_middle {a b : Nat} {pr : Prot} {p q : Entry Region} : q ∈ middle a b pr p ↔
    (p.1.1 < b ∧ a < p.1.2) ∧ q = ((max p.1.1 a, min p.1.2 b), shift (max p.1.1 a - p.1.1) { p.2 with prot := pr }) := by
  unfold middle; split <;> simp [*]

theorem mem_parts {a b : Nat} {pr : Prot} {p q : Entry Region} : q ∈ parts a b pr p ↔ q ∈ before a p ∨ q ∈ middle a b pr p ∨ q ∈ after' b p := by
  unfold parts
  simp only [List.mem_append]

theorem parts_inside {a b : Nat} (hab : a < b) {pr : Prot} {p q : Entry Region} (hn : p.1.1 < p.1.2) (h : q ∈ parts a b pr p) : p.1.1 ≤ q.1.1 ∧ q.1.2 ≤ p.1.2 ∧ q.1.1 < q.1.2 := by
  rcases mem_parts.1 h with h | h | h
  · obtain ⟨_, rfl⟩ := mem_before.1 h
    simp only
    omega
  · obtain ⟨_, rfl⟩ := mem_middle.1 h
    simp only
    omega
  · obtain ⟨_, rfl⟩ := mem_after'.1 h
    simp only
    omega

theorem parts_good {a b : Nat} (hab : a < b) {pr : Prot} {p : Entry Region} (hn : p.1.1 < p.1.2) : Good (parts a b pr p) := by
  refine ⟨fun q hq => (parts_inside hab hn hq).2.2, ?_⟩
  unfold parts
  rw [List.pairwise_append, List.pairwise_append]
  refine ⟨?_, ⟨?_, ?_, ?_⟩, ?_⟩
  · unfold before; split <;> simp
  · unfold middle; split <;> simp
  · unfold after'; split <;> simp
  · intro q hq r hr
    obtain ⟨_, rfl⟩ := mem_middle.1 hq
    obtain ⟨_, rfl⟩ := mem_after'.1 hr
    simp only
    omega
  · intro q hq r hr
    obtain ⟨_, rfl⟩ := mem_before.1 hq
    rcases List.mem_append.1 hr with hr | hr
    · obtain ⟨_, rfl⟩ := mem_middle.1 hr
      simp only
      omega
    · obtain ⟨_, rfl⟩ := mem_after'.1 hr
      simp only
      omega

theorem good_flatMap {f : Entry Region → List (Entry Region)} {L : List (Entry Region)} (h : Good L) (h1 : ∀ p ∈ L, Good (f p))
    (h2 : ∀ p ∈ L, ∀ q ∈ f p, p.1.1 ≤ q.1.1 ∧ q.1.2 ≤ p.1.2) : Good (L.flatMap f) := by
  induction L with
  | nil => exact ⟨by simp, .nil⟩
  | cons p L ih =>
    have hc := List.pairwise_cons.1 h.ord
    rw [List.flatMap_cons]
    refine good_append (h1 p List.mem_cons_self) (ih ⟨fun y hy => h.ne y (List.mem_cons_of_mem _ hy), hc.2⟩ (fun q hq => h1 q (List.mem_cons_of_mem _ hq))
      (fun q hq => h2 q (List.mem_cons_of_mem _ hq))) ?_
    intro q hq r hr
    obtain ⟨p', hp', hr⟩ := List.mem_flatMap.1 hr
    have := h2 p List.mem_cons_self q hq
    have := h2 p' (List.mem_cons_of_mem _ hp') r hr
    have := hc.1 p' hp'
    omega

theorem good_guarded {L : List (Entry Region)} (h : Good L) {a b : Nat} (hab : a < b) (pr : Prot) : Good (guarded L a b pr) :=
  good_flatMap h (fun p hp => parts_good hab (h.ne p hp)) (fun p hp _ hq => ⟨(parts_inside hab (h.ne p hp) hq).1, (parts_inside hab (h.ne p hp) hq).2.1⟩)

theorem at_guarded {L : List (Entry Region)} {a b : Nat} {pr : Prot} {x : Nat} {pr' : Prot} {l : Option Nat} :
    At (guarded L a b pr) x pr' l ↔ (¬ (a ≤ x ∧ x < b) ∧ At L x pr' l) ∨ ((a ≤ x ∧ x < b) ∧ pr' = pr ∧ ∃ pr0, At L x pr0 l) := by
  unfold At guarded
  constructor
  · rintro ⟨q, hq, hc, rfl, rfl⟩
    obtain ⟨p, hp, hq⟩ := List.mem_flatMap.1 hq
    unfold Entry.covers at hc
    rcases mem_parts.1 hq with hq | hq | hq
    · obtain ⟨g, rfl⟩ := mem_before.1 hq
      simp only at hc
      exact .inl ⟨by omega, p, hp, ⟨by omega, by omega⟩, rfl, rfl⟩
    · obtain ⟨g, rfl⟩ := mem_middle.1 hq
      simp only at hc
      refine .inr ⟨by omega, by simp, p.2.prot, p, hp, ⟨by omega, by omega⟩, rfl, ?_⟩
      by_cases hb : p.2.base = 0
      · simp [hb]
      · simp [hb]
        omega
    · obtain ⟨g, rfl⟩ := mem_after'.1 hq
      simp only at hc
      refine .inl ⟨by omega, p, hp, ⟨by omega, by omega⟩, by simp, ?_⟩
      by_cases hb : p.2.base = 0
      · simp [hb]
      · simp [hb]
        omega
  · rintro (⟨hx, p, hp, hc, rfl, rfl⟩ | ⟨hx, rfl, pr0, p, hp, hc, rfl, rfl⟩)
    · unfold Entry.covers at hc
      by_cases h1 : x < a
      · exact ⟨_, List.mem_flatMap.2 ⟨p, hp, mem_parts.2 (.inl (mem_before.2 ⟨by omega, rfl⟩))⟩, ⟨hc.1, by simp only; omega⟩, rfl, rfl⟩
      · refine ⟨_, List.mem_flatMap.2 ⟨p, hp, mem_parts.2 (.inr (.inr (mem_after'.2 ⟨by omega, rfl⟩)))⟩, ⟨by simp only; omega, hc.2⟩, by simp, ?_⟩
        by_cases hb : p.2.base = 0
        · simp [hb]
        · simp [hb]
          omega
    · unfold Entry.covers at hc
      refine ⟨_, List.mem_flatMap.2 ⟨p, hp, mem_parts.2 (.inr (.inl (mem_middle.2 ⟨by omega, rfl⟩)))⟩, ⟨by simp only; omega, by simp only; omega⟩, by simp, ?_⟩
      by_cases hb : p.2.base = 0
      · simp [hb]
      · simp [hb]
        omega

theorem raw_eq {L : List (Entry Region)} (h : Good L) {a b : Nat} (hab : a < b) : raw L a b = L.flatMap (rest a b) := by
  unfold raw
  induction L with
  | nil => rfl
  | cons p L ih =>
    have hc := List.pairwise_cons.1 h.ord
    have ih := ih ⟨fun y hy => h.ne y (List.mem_cons_of_mem _ hy), hc.2⟩
    rw [List.flatMap_cons, List.flatMap_cons, List.flatMap_cons, ← ih]
    unfold rest
    by_cases h1 : b < p.1.2
    · have : L.flatMap (before a) = [] := flatMap_nil_of (fun q hq => by
        have := hc.1 q hq
        unfold before
        rw [if_neg (by omega)])
      rw [this]
      simp
    · have : after b p = [] := by unfold after; rw [if_neg h1]
      rw [this]
      simp

theorem good_rest {L : List (Entry Region)} (h : Good L) {a b : Nat} (hab : a < b) : Good (L.flatMap (rest a b)) := raw_eq h hab ▸ good_raw h hab

theorem insert_between {A B : List (Entry Region)} (h : Good (A ++ B)) {a b : Nat} (hab : a < b) (hA : ∀ p ∈ A, p.1.2 ≤ a) (hB : ∀ p ∈ B, b ≤ p.1.1) (r : Region) :
    (ofList (A ++ B)).insert a b r = .ok (ofList (A ++ ((a, b), r) :: B), []) := by
  rw [insert_gap h hab (fun p hp => by
    rcases List.mem_append.1 hp with hp | hp
    · exact .inl (hA p hp)
    · exact .inr (hB p hp)) r]
  unfold put
  rw [List.flatMap_append, List.flatMap_append, before_early h.left.ne hA, after'_nil (fun p hp => by have := hA p hp; omega), ← after_eq hB,
    after_late h.right.ne hB]
  have : B.flatMap (before a) = [] := flatMap_nil_of (fun q hq => by
    have := hB q hq
    unfold before
    rw [if_neg (by omega)])
  rw [this]
  simp

/-- Between two states, the protection was changed where the interval is mapped into Shadow. -/
structure Set (L : List (Entry Region)) (a b : Nat) (pr : Prot) (s t : St) : Prop where
  file : t.file = s.file
  shadow : ∀ x y, a ≤ x → x < b → Loc L x y → t.shadow y = (s.shadow y).map (fun m => (m.1, pr))
  shadow' : ∀ y, (¬ ∃ x, a ≤ x ∧ x < b ∧ Loc L x y) → t.shadow y = s.shadow y

theorem set_nil {K : List (Entry Region)} {a b : Nat} {pr : Prot} {s t : St} (h : ∀ p ∈ K, b ≤ p.1.1) (h1 : t.file = s.file) (h2 : t.shadow = s.shadow) :
    Set K a b pr s t := by
  refine ⟨h1, fun x y _ g2 g3 => ?_, fun y _ => by rw [h2]⟩
  obtain ⟨p, hp, hc, _⟩ := g3
  have := h p hp
  unfold Entry.covers at hc
  omega

theorem Set.skip {p : Entry Region} {K : List (Entry Region)} {a b : Nat} {pr : Prot} {s m t : St} (h : Set K a b pr m t) (h1 : m.file = s.file) (h2 : m.shadow = s.shadow)
    (hp : ∀ x, a ≤ x → x < b → p.covers x → p.2.base = 0) : Set (p :: K) a b pr s t := by
  refine ⟨h.file.trans h1, fun x y g1 g2 g3 => ?_, fun y g => ?_⟩
  · rcases loc_cons.1 g3 with g4 | g4
    · exact absurd (hp x g1 g2 g4.1) g4.2.1
    · rw [h.shadow x y g1 g2 g4, h2]
  · rw [h.shadow' y, h2]
    rintro ⟨x, g1, g2, g3⟩
    exact g ⟨x, g1, g2, loc_cons.2 (.inr g3)⟩

theorem Set.cons {p : Entry Region} {K : List (Entry Region)} {a b : Nat} {pr : Prot} {s m t : St} (h : Set K a b pr m t) (hb : p.2.base ≠ 0)
    {c d : Nat} (hc : ∀ x, c ≤ x ∧ x < d ↔ a ≤ x ∧ x < b ∧ p.covers x) (hcd : p.1.1 ≤ c ∧ c < d) (h1 : m.file = s.file)
    (h2 : m.shadow = fun y => if p.2.base + (c - p.1.1) ≤ y ∧ y < p.2.base + (d - p.1.1) then (s.shadow y).map (fun m => (m.1, pr)) else s.shadow y) :
    Set (p :: K) a b pr s t := by
  have hin : ∀ x y, a ≤ x → x < b → p.covers x → y = p.2.base + (x - p.1.1) → p.2.base + (c - p.1.1) ≤ y ∧ y < p.2.base + (d - p.1.1) := by
    intro x y g1 g2 g3 g4
    have := (hc x).2 ⟨g1, g2, g3⟩
    omega
  have hout : ∀ y, p.2.base + (c - p.1.1) ≤ y ∧ y < p.2.base + (d - p.1.1) → ∃ x, a ≤ x ∧ x < b ∧ p.covers x ∧ y = p.2.base + (x - p.1.1) := by
    intro y g
    have := (hc (p.1.1 + (y - p.2.base))).1 (by omega)
    exact ⟨_, this.1, this.2.1, this.2.2, by omega⟩
  refine ⟨h.file.trans h1, fun x y g1 g2 g3 => ?_, fun y g => ?_⟩
  · by_cases g4 : ∃ x, a ≤ x ∧ x < b ∧ Loc K x y
    · obtain ⟨z, g4, g5, g6⟩ := g4
      rw [h.shadow z y g4 g5 g6, h2]
      simp only
      split
      · cases s.shadow y <;> rfl
      · rfl
    · rw [h.shadow' y g4, h2]
      rcases loc_cons.1 g3 with g5 | g5
      · exact if_pos (hin x y g1 g2 g5.1 g5.2.2)
      · exact absurd ⟨x, g1, g2, g5⟩ g4
  · rw [h.shadow' y, h2]
    · refine if_neg (fun g1 => ?_)
      obtain ⟨x, g2, g3, g4, g5⟩ := hout y g1
      exact g ⟨x, g2, g3, loc_cons.2 (.inl ⟨g4, hb, g5⟩)⟩
    · rintro ⟨x, g1, g2, g3⟩
      exact g ⟨x, g1, g2, loc_cons.2 (.inr g3)⟩

theorem parts_late {K : List (Entry Region)} {a b : Nat} (pr : Prot) (h : ∀ p ∈ K, b ≤ p.1.1) : K.flatMap (rest a b) = K.flatMap (parts a b pr) := by
  induction K with
  | nil => rfl
  | cons p K ih =>
    have h1 := h p List.mem_cons_self
    rw [List.flatMap_cons, List.flatMap_cons, ih (fun q hq => h q (List.mem_cons_of_mem _ hq))]
    have : rest a b p = parts a b pr p := by
      unfold rest parts middle after after'
      rw [Nat.max_eq_left h1, Nat.sub_self, shift_zero, if_neg (c := p.1.1 < b ∧ a < p.1.2) (by omega)]
      rfl
    rw [this]

/-- The protection of a piece of a region that is mapped into Shadow. -/
theorem protectPart_eq (s : St) (r : Region) {len : Nat} (pr : Prot) (hp : 0 < s.page) (hb : r.base % s.page = 0) (hl : len % s.page = 0) (h0 : r.base ≠ 0) :
    s.protectPart r len pr = { s with shadow := fun y => if r.base ≤ y ∧ y < r.base + len then (s.shadow y).map (fun m => (m.1, pr)) else s.shadow y } := by
  unfold St.protectPart sMprotect
  rw [if_neg h0, if_pos hb, pageUp_eq hp hl]

theorem protectPart_zero (s : St) (r : Region) (len : Nat) (pr : Prot) (h0 : r.base = 0) : s.protectPart r len pr = s := by
  unfold St.protectPart
  rw [if_pos h0]

theorem insertNew_between {A B : List (Entry Region)} (h : Good (A ++ B)) {a b : Nat} (hab : a < b) (hA : ∀ p ∈ A, p.1.2 ≤ a) (hB : ∀ p ∈ B, b ≤ p.1.1) (r : Region)
    {s : St} (hr : s.regions = ofList (A ++ B)) : s.insertNew a b r = .ok { s with regions := ofList (A ++ ((a, b), r) :: B) } := by
  unfold St.insertNew
  rw [hr, insert_between h hab hA hB, R.bind_ok]
  rfl

theorem protectAll_spec {L : List (Entry Region)} (hL : Good L) {pg : Nat} (hA : Aligned pg L) {a b : Nat} (hab : a < b) (ha : a % pg = 0) (hb : b % pg = 0) (pr : Prot) :
    ∀ (K D : List (Entry Region)) (s : St), L = D ++ K → (∀ p ∈ D, p.1.2 ≤ b) → s.page = pg → s.regions = ofList (D.flatMap (parts a b pr) ++ K.flatMap (rest a b)) →
    ∃ t, s.protectAll pr (K.filterMap (change a b)) = .ok t ∧ Frame s t ∧ t.regions = ofList (guarded L a b pr) ∧ Set K a b pr s t := by
  intro K
  induction K with
  | nil =>
    intro D s hD hDb hpg hr
    refine ⟨s, rfl, .refl s, ?_, set_nil (by simp) rfl rfl⟩
    rw [List.append_nil] at hD
    subst hD
    rw [hr]
    simp [guarded]
  | cons p K ih =>
    intro D s hD hDb hpg hr
    have hpL : p ∈ L := by rw [hD]; simp
    have hn := hL.ne p hpL
    have hps := hA.s p hpL
    have hpe := hA.e p hpL
    have hpb := hA.base p hpL
    have hG : Good (D ++ p :: K) := hD ▸ hL
    have hK : ∀ q ∈ K, p.1.2 ≤ q.1.1 := (List.pairwise_cons.1 hG.right.ord).1
    have hDp : ∀ q ∈ D, q.1.2 ≤ p.1.1 := fun q hq => hG.cross hq List.mem_cons_self
    have hDg : Good (D.flatMap (parts a b pr)) := good_guarded hG.left hab pr
    have hDe : ∀ q ∈ D.flatMap (parts a b pr), q.1.2 ≤ p.1.1 := by
      intro q hq
      obtain ⟨o, ho, hq⟩ := List.mem_flatMap.1 hq
      have := (parts_inside hab (hG.left.ne o ho) hq).2.1
      have := hDp o ho
      omega
    have hKg0 : Good K := by
      have : D ++ p :: K = (D ++ [p]) ++ K := by simp
      rw [this] at hG
      exact hG.right
    have hKg : Good (K.flatMap (rest a b)) := good_rest hKg0 hab
    have hKs : ∀ q ∈ K.flatMap (rest a b), p.1.2 ≤ q.1.1 := by
      intro q hq
      obtain ⟨o, ho, hq⟩ := List.mem_flatMap.1 hq
      have h1 := hK o ho
      rcases List.mem_append.1 hq with hq | hq
      · obtain ⟨_, rfl⟩ := mem_before.1 hq
        exact h1
      · obtain ⟨_, rfl⟩ := mem_after.1 hq
        simp only
        omega
    have hD' : L = (D ++ [p]) ++ K := by rw [hD]; simp
    have hstep : ∀ (l : List (Entry Region)), l = parts a b pr p → D.flatMap (parts a b pr) ++ l ++ K.flatMap (rest a b) = (D ++ [p]).flatMap (parts a b pr) ++ K.flatMap (rest a b) := by
      intro l hl
      rw [hl]
      simp
    by_cases h1 : b ≤ p.1.1
    · have hall : ∀ q ∈ p :: K, b ≤ q.1.1 := by
        intro q hq
        rcases List.mem_cons.1 hq with rfl | hq
        · exact h1
        · have := hK q hq; omega
      rw [change_late hall]
      refine ⟨s, rfl, .refl s, ?_, set_nil hall rfl rfl⟩
      rw [hr, parts_late pr hall, ← List.flatMap_append, ← hD]
      rfl
    by_cases h2 : p.1.2 ≤ a
    · have hc : change a b p = none := by unfold change; rw [if_pos (.inl h2)]
      rw [List.filterMap_cons_none hc]
      have hpp : rest a b p = parts a b pr p := by
        unfold rest parts middle after after'
        rw [if_neg (c := b < p.1.2) (by omega), if_neg (c := b < p.1.2) (by omega), if_neg (c := p.1.1 < b ∧ a < p.1.2) (by omega)]
        rfl
      obtain ⟨t, g1, g2, g3, g4⟩ := ih (D ++ [p]) s hD' (by
        intro q hq
        rcases List.mem_append.1 hq with hq | hq
        · exact hDb q hq
        · rw [List.mem_singleton] at hq; subst hq; omega) hpg (by rw [hr, ← hstep _ hpp, List.flatMap_cons]; simp)
      exact ⟨t, g1, g2, g3, g4.skip rfl rfl (fun x g5 g6 g7 => by unfold Entry.covers at g7; omega)⟩
    by_cases h3 : p.1.2 ≤ b
    · have ih' := ih (D ++ [p])
      have hDb' : ∀ q ∈ D ++ [p], q.1.2 ≤ b := by
        intro q hq
        rcases List.mem_append.1 hq with hq | hq
        · exact hDb q hq
        · rw [List.mem_singleton] at hq; subst hq; omega
      have haf : after b p = [] := by unfold after; rw [if_neg (by omega)]
      have haf' : after' b p = [] := by unfold after'; rw [if_neg (by omega)]
      by_cases h4 : p.1.1 < a
      · have hc : change a b p = some (.modifiedEnd p.1 a) := by
          unfold change; rw [if_neg (by omega), if_pos h4, if_pos h3]
        have hbe : before a p = [((p.1.1, a), p.2)] := by
          unfold before; rw [if_pos h4, Nat.min_eq_right (by omega)]
        have hre : rest a b p = [((p.1.1, a), p.2)] := by unfold rest; rw [hbe, haf]; rfl
        have hpa : parts a b pr p = [((p.1.1, a), p.2), ((a, p.1.2), shift (a - p.1.1) { p.2 with prot := pr })] := by
          unfold parts middle
          rw [hbe, haf', if_pos (by omega), Nat.max_eq_right (by omega), Nat.min_eq_left h3]
          rfl
        have hr1 : s.regions = ofList ((D.flatMap (parts a b pr) ++ [((p.1.1, a), p.2)]) ++ K.flatMap (rest a b)) := by
          rw [hr, List.flatMap_cons, hre]; simp
        have hgd : Good ((D.flatMap (parts a b pr) ++ [((p.1.1, a), p.2)]) ++ K.flatMap (rest a b)) := by
          refine good_append (good_append hDg ⟨by simpa using h4, List.pairwise_singleton _ _⟩ ?_) hKg ?_
          · intro q hq r hr
            rw [List.mem_singleton] at hr; subst hr
            exact hDe q hq
          · intro q hq r hr
            have := hKs r hr
            rcases List.mem_append.1 hq with hq | hq
            · have := hDe q hq; omega
            · rw [List.mem_singleton] at hq; subst hq; simp only; omega
        have hf : find s.regions (a - 1) = .ok ((p.1.1, a), p.2) := by
          rw [hr1]
          exact find_spec hgd (by simp) (by unfold Entry.covers; simp only; omega)
        have hins : ∀ (u : St), u.regions = s.regions → u.insertNew a p.1.2 (shift (a - p.1.1) { p.2 with prot := pr }) =
            .ok { u with regions := ofList ((D ++ [p]).flatMap (parts a b pr) ++ K.flatMap (rest a b)) } := by
          intro u hu
          rw [insertNew_between hgd (by omega) ?_ ?_ _ (hu.trans hr1)]
          · rw [← hstep _ rfl, hpa]; simp
          · intro q hq
            rcases List.mem_append.1 hq with hq | hq
            · have := hDe q hq; omega
            · rw [List.mem_singleton] at hq; subst hq; exact Nat.le_refl _
          · exact hKs
        rw [List.filterMap_cons_some hc]
        by_cases hz : p.2.base = 0
        · obtain ⟨t, g1, g2, g3, g4⟩ := ih' { s with regions := ofList ((D ++ [p]).flatMap (parts a b pr) ++ K.flatMap (rest a b)) } hD' hDb' hpg rfl
          refine ⟨t, ?_, ⟨g2.page, g2.plugin, g2.mem, g2.len, g2.heap⟩, g3, g4.skip rfl rfl (fun _ _ _ _ => hz)⟩
          simp only [St.protectAll, St.protectOne, hf, R.bind_ok]
          rw [protectPart_zero _ _ _ _ (by simp [hz]), hins s rfl, R.bind_ok]
          exact g1
        · obtain ⟨t, g1, g2, g3, g4⟩ := ih' { s with
            shadow := fun y => if p.2.base + (a - p.1.1) ≤ y ∧ y < p.2.base + (a - p.1.1) + (p.1.2 - a) then (s.shadow y).map (fun m => (m.1, pr)) else s.shadow y
            regions := ofList ((D ++ [p]).flatMap (parts a b pr) ++ K.flatMap (rest a b)) } hD' hDb' hpg rfl
          refine ⟨t, ?_, ⟨g2.page, g2.plugin, g2.mem, g2.len, g2.heap⟩, g3, g4.cons hz (c := a) (d := p.1.2) ?_ (by omega) rfl ?_⟩
          · simp only [St.protectAll, St.protectOne, hf, R.bind_ok]
            rw [protectPart_eq _ _ _ (by rw [hpg]; exact hA.pos) (by simp [hz, hpg]; exact mod_add hpb (mod_sub ha hps)) (by rw [hpg]; exact mod_sub hpe ha) (by simp [hz]),
              hins _ (by rfl), R.bind_ok]
            simp only [shift_base, hz, if_false]
            exact g1
          · intro x
            unfold Entry.covers
            omega
          · funext y
            rw [show p.2.base + (a - p.1.1) + (p.1.2 - a) = p.2.base + (p.1.2 - p.1.1) by omega]
      · have hc : change a b p = some (.removed p.1 p.2) := by
          unfold change; rw [if_neg (by omega), if_neg h4, if_pos h3]
        have hbe : before a p = [] := by unfold before; rw [if_neg h4]
        have hre : rest a b p = [] := by unfold rest; rw [hbe, haf]; rfl
        have hpa : parts a b pr p = [(p.1, { p.2 with prot := pr })] := by
          unfold parts middle
          rw [hbe, haf', if_pos (by omega), Nat.max_eq_left (by omega), Nat.min_eq_left h3, Nat.sub_self, shift_zero]
          rfl
        have hr1 : s.regions = ofList (D.flatMap (parts a b pr) ++ K.flatMap (rest a b)) := by
          rw [hr, List.flatMap_cons, hre]; simp
        have hgd : Good (D.flatMap (parts a b pr) ++ K.flatMap (rest a b)) := by
          refine good_append hDg hKg ?_
          intro q hq r hr
          have := hKs r hr
          have := hDe q hq
          omega
        have hins : ∀ (u : St), u.regions = s.regions → u.insertNew p.1.1 p.1.2 { p.2 with prot := pr } =
            .ok { u with regions := ofList ((D ++ [p]).flatMap (parts a b pr) ++ K.flatMap (rest a b)) } := by
          intro u hu
          rw [insertNew_between hgd hn hDe hKs _ (hu.trans hr1)]
          rw [← hstep _ rfl, hpa]
          simp
        rw [List.filterMap_cons_some hc]
        by_cases hz : p.2.base = 0
        · obtain ⟨t, g1, g2, g3, g4⟩ := ih' { s with regions := ofList ((D ++ [p]).flatMap (parts a b pr) ++ K.flatMap (rest a b)) } hD' hDb' hpg rfl
          refine ⟨t, ?_, ⟨g2.page, g2.plugin, g2.mem, g2.len, g2.heap⟩, g3, g4.skip rfl rfl (fun _ _ _ _ => hz)⟩
          simp only [St.protectAll, St.protectOne]
          rw [protectPart_zero _ _ _ _ (by simp [hz]), hins s rfl, R.bind_ok]
          exact g1
        · obtain ⟨t, g1, g2, g3, g4⟩ := ih' { s with
            shadow := fun y => if p.2.base ≤ y ∧ y < p.2.base + (p.1.2 - p.1.1) then (s.shadow y).map (fun m => (m.1, pr)) else s.shadow y
            regions := ofList ((D ++ [p]).flatMap (parts a b pr) ++ K.flatMap (rest a b)) } hD' hDb' hpg rfl
          refine ⟨t, ?_, ⟨g2.page, g2.plugin, g2.mem, g2.len, g2.heap⟩, g3, g4.cons hz (c := p.1.1) (d := p.1.2) ?_ (by omega) rfl ?_⟩
          · simp only [St.protectAll, St.protectOne]
            rw [protectPart_eq _ _ _ (by rw [hpg]; exact hA.pos) (by rw [hpg]; exact hpb) (by rw [hpg]; exact mod_sub hpe hps) (by exact hz), hins _ (by rfl), R.bind_ok]
            exact g1
          · intro x
            unfold Entry.covers
            omega
          · funext y
            rw [Nat.sub_self, Nat.add_zero]
    · -- the last region that meets the interval
      have hlate : ∀ q ∈ K, b ≤ q.1.1 := fun q hq => by have := hK q hq; omega
      have haf : after b p = [((b, p.1.2), p.2)] := by unfold after; rw [if_pos (by omega), Nat.max_eq_right (by omega)]
      have haf' : after' b p = [((b, p.1.2), shift (b - p.1.1) p.2)] := by unfold after'; rw [if_pos (by omega), Nat.max_eq_right (by omega)]
      have hfin : ∀ l, l = parts a b pr p → D.flatMap (parts a b pr) ++ l ++ K.flatMap (rest a b) = guarded L a b pr := by
        intro l hl
        rw [hstep l hl, parts_late pr hlate, ← List.flatMap_append, ← hD']
        rfl
      have hcov : Entry.covers (((b, p.1.2), p.2) : Entry Region) b := by unfold Entry.covers; simp only; omega
      by_cases h4 : p.1.1 < a
      · have hc : change a b p = some (.split p.1 (p.1.1, a) (b, p.1.2)) := by
          unfold change; rw [if_neg (by omega), if_pos h4, if_neg h3]
        have hbe : before a p = [((p.1.1, a), p.2)] := by
          unfold before; rw [if_pos h4, Nat.min_eq_right (by omega)]
        have hpa : parts a b pr p = [((p.1.1, a), p.2), ((a, b), shift (a - p.1.1) { p.2 with prot := pr }), ((b, p.1.2), shift (b - p.1.1) p.2)] := by
          unfold parts middle
          rw [hbe, haf', if_pos (by omega), Nat.max_eq_right (by omega), Nat.min_eq_right (by omega)]
          rfl
        have hr1 : s.regions = ofList ((D.flatMap (parts a b pr) ++ [((p.1.1, a), p.2)]) ++ ((b, p.1.2), p.2) :: K.flatMap (rest a b)) := by
          rw [hr, List.flatMap_cons]; unfold rest; rw [hbe, haf]; simp
        have hgd : ∀ v : Region, Good ((D.flatMap (parts a b pr) ++ [((p.1.1, a), p.2)]) ++ ((b, p.1.2), v) :: K.flatMap (rest a b)) := by
          intro v
          refine good_append (good_append hDg ⟨by simpa using h4, List.pairwise_singleton _ _⟩ ?_) ?_ ?_
          · intro q hq r hr
            rw [List.mem_singleton] at hr; subst hr
            exact hDe q hq
          · rw [← List.singleton_append]
            refine good_append ⟨by simp; omega, List.pairwise_singleton _ _⟩ hKg ?_
            intro q hq r hr
            rw [List.mem_singleton] at hq; subst hq
            exact hKs r hr
          · intro q hq r hr
            have hb' : b ≤ r.1.1 := by
              rcases List.mem_cons.1 hr with rfl | hr
              · exact Nat.le_refl _
              · have := hKs r hr; omega
            rcases List.mem_append.1 hq with hq | hq
            · have := hDe q hq; omega
            · rw [List.mem_singleton] at hq; subst hq; simp only; omega
        have hf : find s.regions b = .ok ((b, p.1.2), p.2) := by
          rw [hr1]
          exact find_spec (hgd _) (by simp) hcov
        have hmod : modify s.regions b (shift ((a - p.1.1) + (b - a))) =
            .ok (ofList ((D.flatMap (parts a b pr) ++ [((p.1.1, a), p.2)]) ++ ((b, p.1.2), shift (b - p.1.1) p.2) :: K.flatMap (rest a b))) := by
          rw [hr1, modify_spec (hgd _) hcov, show (a - p.1.1) + (b - a) = b - p.1.1 by omega]
        have hins : ∀ (u : St), u.regions = ofList ((D.flatMap (parts a b pr) ++ [((p.1.1, a), p.2)]) ++ ((b, p.1.2), shift (b - p.1.1) p.2) :: K.flatMap (rest a b)) →
            u.insertNew a b (shift (a - p.1.1) { p.2 with prot := pr }) = .ok { u with regions := ofList (guarded L a b pr) } := by
          intro u hu
          rw [insertNew_between (hgd _) hab ?_ ?_ _ hu]
          · rw [← hfin _ rfl, hpa]; simp
          · intro q hq
            rcases List.mem_append.1 hq with hq | hq
            · have := hDe q hq; omega
            · rw [List.mem_singleton] at hq; subst hq; exact Nat.le_refl _
          · intro q hq
            rcases List.mem_cons.1 hq with rfl | hq
            · exact Nat.le_refl _
            · have := hKs q hq; omega
        rw [List.filterMap_cons_some hc, change_late hlate]
        by_cases hz : p.2.base = 0
        · refine ⟨{ s with regions := ofList (guarded L a b pr) }, ?_, ⟨rfl, rfl, rfl, rfl, rfl⟩, rfl, (set_nil hlate rfl rfl).skip rfl rfl (fun _ _ _ _ => hz)⟩
          simp only [St.protectAll, St.protectOne, hf, hmod, R.bind_ok]
          rw [protectPart_zero _ _ _ _ (by simp [hz]), hins _ (by rfl), R.bind_ok]
        · refine ⟨{ s with
            shadow := fun y => if p.2.base + (a - p.1.1) ≤ y ∧ y < p.2.base + (a - p.1.1) + (b - a) then (s.shadow y).map (fun m => (m.1, pr)) else s.shadow y
            regions := ofList (guarded L a b pr) }, ?_, ⟨rfl, rfl, rfl, rfl, rfl⟩, rfl, (set_nil hlate rfl rfl).cons hz (c := a) (d := b) ?_ (by omega) rfl ?_⟩
          · simp only [St.protectAll, St.protectOne, hf, hmod, R.bind_ok]
            rw [protectPart_eq _ _ _ (by simp only [hpg]; exact hA.pos) (by simp [hz, hpg]; exact mod_add hpb (mod_sub ha hps)) (by simp only [hpg]; exact mod_sub hb ha) (by simp [hz]),
              hins _ (by rfl), R.bind_ok]
            simp only [shift_base, hz, if_false]
          · intro x
            unfold Entry.covers
            omega
          · funext y
            rw [show p.2.base + (a - p.1.1) + (b - a) = p.2.base + (b - p.1.1) by omega]
      · have hc : change a b p = some (.modifiedBegin p.1 b) := by
          unfold change; rw [if_neg (by omega), if_neg h4, if_neg h3]
        have hbe : before a p = [] := by unfold before; rw [if_neg h4]
        have hpa : parts a b pr p = [((p.1.1, b), { p.2 with prot := pr }), ((b, p.1.2), shift (b - p.1.1) p.2)] := by
          unfold parts middle
          rw [hbe, haf', if_pos (by omega), Nat.max_eq_left (by omega), Nat.min_eq_right (by omega), Nat.sub_self, shift_zero]
          rfl
        have hr1 : s.regions = ofList (D.flatMap (parts a b pr) ++ ((b, p.1.2), p.2) :: K.flatMap (rest a b)) := by
          rw [hr, List.flatMap_cons]; unfold rest; rw [hbe, haf]; simp
        have hgd : ∀ v : Region, Good (D.flatMap (parts a b pr) ++ ((b, p.1.2), v) :: K.flatMap (rest a b)) := by
          intro v
          refine good_append hDg ?_ ?_
          · rw [← List.singleton_append]
            refine good_append ⟨by simp; omega, List.pairwise_singleton _ _⟩ hKg ?_
            intro q hq r hr
            rw [List.mem_singleton] at hq; subst hq
            exact hKs r hr
          · intro q hq r hr
            have := hDe q hq
            rcases List.mem_cons.1 hr with rfl | hr
            · simp only; omega
            · have := hKs r hr; omega
        have hf : find s.regions b = .ok ((b, p.1.2), p.2) := by
          rw [hr1]
          exact find_spec (hgd _) (by simp) hcov
        have hmod : modify s.regions b (shift (b - p.1.1)) =
            .ok (ofList (D.flatMap (parts a b pr) ++ ((b, p.1.2), shift (b - p.1.1) p.2) :: K.flatMap (rest a b))) := by
          rw [hr1, modify_spec (hgd _) hcov]
        have hins : ∀ (u : St), u.regions = ofList (D.flatMap (parts a b pr) ++ ((b, p.1.2), shift (b - p.1.1) p.2) :: K.flatMap (rest a b)) →
            u.insertNew p.1.1 b { p.2 with prot := pr } = .ok { u with regions := ofList (guarded L a b pr) } := by
          intro u hu
          rw [insertNew_between (hgd _) (by omega) hDe ?_ _ hu]
          · rw [← hfin _ rfl, hpa]; simp
          · intro q hq
            rcases List.mem_cons.1 hq with rfl | hq
            · exact Nat.le_refl _
            · have := hKs q hq; omega
        rw [List.filterMap_cons_some hc, change_late hlate]
        by_cases hz : p.2.base = 0
        · refine ⟨{ s with regions := ofList (guarded L a b pr) }, ?_, ⟨rfl, rfl, rfl, rfl, rfl⟩, rfl, (set_nil hlate rfl rfl).skip rfl rfl (fun _ _ _ _ => hz)⟩
          simp only [St.protectAll, St.protectOne, hf, hmod, R.bind_ok]
          rw [protectPart_zero _ _ _ _ (by simp [hz]), hins _ (by rfl), R.bind_ok]
        · refine ⟨{ s with
            shadow := fun y => if p.2.base ≤ y ∧ y < p.2.base + (b - p.1.1) then (s.shadow y).map (fun m => (m.1, pr)) else s.shadow y
            regions := ofList (guarded L a b pr) }, ?_, ⟨rfl, rfl, rfl, rfl, rfl⟩, rfl, (set_nil hlate rfl rfl).cons hz (c := p.1.1) (d := b) ?_ (by omega) rfl ?_⟩
          · simp only [St.protectAll, St.protectOne, hf, hmod, R.bind_ok]
            rw [protectPart_eq _ _ _ (by simp only [hpg]; exact hA.pos) (by simp only [hpg]; exact hpb) (by simp only [hpg]; exact mod_sub hb hps) (by exact hz),
              hins _ (by rfl), R.bind_ok]
          · intro x
            unfold Entry.covers
            omega
          · funext y
            rw [Nat.sub_self, Nat.add_zero]

end Shadow.MemMap
