import Verif.IntervalMap.Model

/-!
# The interval map: theorems (C41)
-/
namespace Shadow.IntervalMap

open Shadow.Base

variable {V : Type}

/-! ## Specification

An entry is an interval (its end excluded) with a value. -/

abbrev Entry (V : Type) := (Nat × Nat) × V

def Entry.covers (p : Entry V) (x : Nat) : Prop := p.1.1 ≤ x ∧ x < p.1.2

instance (p : Entry V) (x : Nat) : Decidable (p.covers x) := by unfold Entry.covers; infer_instance

/-- What becomes of an entry when the interval from `s` to `e` is taken away from it. -/
def change (s e : Nat) (p : Entry V) : Option (Mutation V) :=
  if p.1.2 ≤ s ∨ e ≤ p.1.1 then none
  else if p.1.1 < s then
    if p.1.2 ≤ e then some (.modifiedEnd p.1 s) else some (.split p.1 (p.1.1, s) (e, p.1.2))
  else if p.1.2 ≤ e then some (.removed p.1 p.2) else some (.modifiedBegin p.1 e)

/-- The part before `s`, the part from `e` on. -/
def before (s : Nat) (p : Entry V) : List (Entry V) := if p.1.1 < s then [((p.1.1, min p.1.2 s), p.2)] else []
def after (e : Nat) (p : Entry V) : List (Entry V) := if e < p.1.2 then [((max p.1.1 e, p.1.2), p.2)] else []

/-- The entries after an insertion. -/
def spliced (L : List (Entry V)) (s e : Nat) (val : Option V) : List (Entry V) :=
  L.flatMap (before s) ++ (val.map (fun v => ((s, e), v))).toList ++ L.flatMap (after e)

/-- Non-empty intervals, in order, disjoint. -/
structure Good (L : List (Entry V)) : Prop where
  ne : ∀ p ∈ L, p.1.1 < p.1.2
  ord : L.Pairwise (fun p q => p.1.2 ≤ q.1.1)

def ofList (L : List (Entry V)) : IMap V := ⟨L.map (fun p => p.1.1), L.map (fun p => p.1.2), L.map (fun p => p.2)⟩

/-! ## Searching -/

theorem search_append {l r : List Nat} {x : Nat} (hl : ∀ y ∈ l, y < x) (hr : ∀ y ∈ r, x ≤ y) : search (l ++ r) x = (r[0]? == some x, l.length) := by
  unfold search
  have h : (l ++ r).takeWhile (fun y => decide (y < x)) = l := by
    rw [List.takeWhile_append_of_pos (by intro y hy; simpa using hl y hy)]
    cases r with
    | nil => simp
    | cons y r => rw [List.takeWhile_cons_of_neg (by have := hr y List.mem_cons_self; simpa using this), List.append_nil]
  dsimp only
  rw [h, List.getElem?_append_right (Nat.le_refl _), Nat.sub_self]

theorem spliceEnd_eq {x y : List Nat} {e : Nat} (hx : ∀ a ∈ x, a ≤ e) (hs : x.Pairwise (· < ·)) (hy : ∀ a ∈ y, e < a) : spliceEnd (x ++ y) e = x.length := by
  rcases List.eq_nil_or_concat x with rfl | ⟨x', b, rfl⟩
  · unfold spliceEnd
    rw [search_append (by simp) (fun a ha => Nat.le_of_lt (hy a ha))]
    cases y with
    | nil => simp
    | cons a y => have := hy a List.mem_cons_self; simp; omega
  · rw [List.concat_eq_append] at *
    rw [List.pairwise_append] at hs
    have hb : b ≤ e := hx b (by simp)
    by_cases hbe : b = e
    · subst hbe
      unfold spliceEnd
      rw [List.append_assoc, search_append (fun a ha => hs.2.2 a ha b (by simp)) (by
        intro a ha
        simp only [List.mem_append, List.mem_singleton] at ha
        rcases ha with rfl | ha
        · omega
        · have := hy a ha; omega)]
      simp
    · unfold spliceEnd
      rw [search_append (by
        intro a ha
        have := hx a ha
        rcases List.mem_append.1 ha with ha | ha
        · have := hs.2.2 a ha b (by simp); omega
        · rw [List.mem_singleton] at ha; omega) (fun a ha => Nat.le_of_lt (hy a ha))]
      cases y with
      | nil => simp
      | cons a y => have := hy a List.mem_cons_self; simp; omega

/-! ## The first part -/

theorem Good.left {A B : List (Entry V)} (h : Good (A ++ B)) : Good A :=
  ⟨fun p hp => h.ne p (List.mem_append_left _ hp), (List.pairwise_append.1 h.ord).1⟩

theorem Good.right {A B : List (Entry V)} (h : Good (A ++ B)) : Good B :=
  ⟨fun p hp => h.ne p (List.mem_append_right _ hp), (List.pairwise_append.1 h.ord).2.1⟩

theorem Good.cross {A B : List (Entry V)} (h : Good (A ++ B)) {p q : Entry V} (hp : p ∈ A) (hq : q ∈ B) : p.1.2 ≤ q.1.1 :=
  (List.pairwise_append.1 h.ord).2.2 p hp q hq

theorem before_early {s : Nat} {L : List (Entry V)} (hn : ∀ p ∈ L, p.1.1 < p.1.2) (h : ∀ p ∈ L, p.1.2 ≤ s) : L.flatMap (before s) = L := by
  induction L with
  | nil => rfl
  | cons p L ih =>
    rw [List.flatMap_cons, ih (fun q hq => hn q (List.mem_cons_of_mem _ hq)) (fun q hq => h q (List.mem_cons_of_mem _ hq))]
    have h1 := hn p List.mem_cons_self
    have h2 := h p List.mem_cons_self
    unfold before
    rw [if_pos (by omega), Nat.min_eq_left h2]
    rfl

theorem flatMap_nil_of {α β : Type} {f : α → List β} {L : List α} (h : ∀ p ∈ L, f p = []) : L.flatMap f = [] := by
  rw [List.flatMap_eq_nil_iff]; exact h

theorem filterMap_nil_of {α β : Type} {f : α → Option β} {L : List α} (h : ∀ p ∈ L, f p = none) : L.filterMap f = [] := by
  rw [List.filterMap_eq_nil_iff]; exact h

theorem filterMap_map {α β : Type} {f : α → Option β} {g : α → β} {L : List α} (h : ∀ p ∈ L, f p = some (g p)) : L.filterMap f = L.map g := by
  induction L with
  | nil => rfl
  | cons p L ih =>
    rw [List.filterMap_cons, h p List.mem_cons_self, ih (fun q hq => h q (List.mem_cons_of_mem _ hq))]
    rfl

theorem left_spec {A rest : List (Entry V)} {s e : Nat} (h : Good (A ++ rest)) (hse : s < e) (hA : ∀ p ∈ A, p.1.1 < s) :
    ∃ l, (ofList (A ++ rest)).left A.length s e = .ok l ∧ l.ends = (A.flatMap (before s)).map (fun p => p.1.2) ++ rest.map (fun p => p.1.2) ∧
      l.piece.toList = A.flatMap (after e) ∧ l.mutation.toList = A.filterMap (change s e) := by
  rcases List.eq_nil_or_concat A with rfl | ⟨A', p, rfl⟩
  · exact ⟨_, rfl, by simp [ofList], rfl, rfl⟩
  rw [List.concat_eq_append] at *
  have hG := h.left
  have hp : p.1.1 < p.1.2 := hG.ne p (by simp)
  have hps : p.1.1 < s := hA p (by simp)
  have hA' : ∀ q ∈ A', q.1.2 ≤ p.1.1 := fun q hq => hG.cross hq (by simp)
  have b1 : A'.flatMap (before s) = A' := before_early (fun q hq => hG.ne q (by simp [hq])) (fun q hq => by have := hA' q hq; omega)
  have a1 : A'.flatMap (after e) = [] := flatMap_nil_of (fun q hq => by unfold after; rw [if_neg]; have := hA' q hq; omega)
  have c1 : A'.filterMap (change s e) = [] := filterMap_nil_of (fun q hq => by unfold change; rw [if_pos]; have := hA' q hq; omega)
  have i1 : ∀ {β : Type} (f : Entry V → β), ((A' ++ [p] ++ rest).map f)[(A' ++ [p]).length - 1]? = some (f p) := by
    intro β f
    rw [List.map_append, List.map_append, List.append_assoc, List.getElem?_append_right (by simp)]
    simp
  have i2 : ((A' ++ [p] ++ rest).map (fun p => p.1.2)).set ((A' ++ [p]).length - 1) s = A'.map (fun p => p.1.2) ++ [s] ++ rest.map (fun p => p.1.2) := by
    rw [List.map_append, List.map_append, List.append_assoc, List.set_append_right _ _ (by simp)]
    simp
  have e1 : (ofList (A' ++ [p] ++ rest)).ends[(A' ++ [p]).length - 1]? = some p.1.2 := i1 _
  have e2 : (ofList (A' ++ [p] ++ rest)).starts[(A' ++ [p]).length - 1]? = some p.1.1 := i1 _
  have e3 : (ofList (A' ++ [p] ++ rest)).vals[(A' ++ [p]).length - 1]? = some p.2 := i1 _
  unfold IMap.left
  rw [if_pos (by simp), e1, e2, e3]
  simp only [R.unwrap_some, R.bind_ok, R.pure_eq]
  rw [List.flatMap_append, List.flatMap_append, List.filterMap_append, b1, a1, c1]
  by_cases h1 : p.1.2 > s
  · rw [if_pos h1]
    by_cases h2 : p.1.2 ≤ e
    · rw [if_pos h2]
      refine ⟨_, rfl, ?_, ?_, ?_⟩
      · show List.set _ _ _ = _
        rw [show (ofList (A' ++ [p] ++ rest)).ends = (A' ++ [p] ++ rest).map (fun p => p.1.2) from rfl, i2]
        simp [before, hps, Nat.min_eq_right (Nat.le_of_lt h1)]
      · simp [after, Nat.not_lt.2 h2]
      · simp only [List.filterMap_cons, List.filterMap_nil, change]
        rw [if_neg (by omega), if_pos hps, if_pos h2]
        rfl
    · rw [if_neg h2]
      refine ⟨_, rfl, ?_, ?_, ?_⟩
      · show List.set _ _ _ = _
        rw [show (ofList (A' ++ [p] ++ rest)).ends = (A' ++ [p] ++ rest).map (fun p => p.1.2) from rfl, i2]
        simp [before, hps, Nat.min_eq_right (Nat.le_of_lt h1)]
      · simp [after, Nat.not_le.1 h2, Nat.max_eq_right (show p.1.1 ≤ e by omega)]
      · simp only [List.filterMap_cons, List.filterMap_nil, change]
        rw [if_neg (by omega), if_pos hps, if_neg h2]
        rfl
  · rw [if_neg h1]
    have h1 : p.1.2 ≤ s := by omega
    refine ⟨_, rfl, ?_, ?_, ?_⟩
    · simp [ofList, before, hps, Nat.min_eq_left h1]
    · simp [after, show ¬ e < p.1.2 by omega]
    · simp only [List.filterMap_cons, List.filterMap_nil, change]
      rw [if_pos (by omega)]
      rfl

/-! ## The second part -/

theorem after_late {e : Nat} {L : List (Entry V)} (hn : ∀ p ∈ L, p.1.1 < p.1.2) (h : ∀ p ∈ L, e ≤ p.1.1) : L.flatMap (after e) = L := by
  induction L with
  | nil => rfl
  | cons p L ih =>
    rw [List.flatMap_cons, ih (fun q hq => hn q (List.mem_cons_of_mem _ hq)) (fun q hq => h q (List.mem_cons_of_mem _ hq))]
    have h1 := hn p List.mem_cons_self
    have h2 := h p List.mem_cons_self
    unfold after
    rw [if_pos (by omega), Nat.max_eq_left h2]
    rfl

theorem right_spec {A : List Nat} {E : List Nat} {N : List (Entry V)} {s e : Nat} (hl : A.length = E.length) (hN : Good N) (hs : ∀ p ∈ N, s ≤ p.1.1) (he : ∀ p ∈ N, e < p.1.2) :
    ∃ r, right (V := V) (A ++ N.map (fun p => p.1.1)) (E ++ N.map (fun p => p.1.2)) A.length e = .ok r ∧
      r.1 = A ++ (N.flatMap (after e)).map (fun p => p.1.1) ∧ r.2.toList = N.filterMap (change s e) ∧
      (N.flatMap (after e)).map (fun p => p.1.2) = N.map (fun p => p.1.2) ∧ (N.flatMap (after e)).map (fun p => p.2) = N.map (fun p => p.2) := by
  unfold right
  cases N with
  | nil => rw [if_neg (by simp)]; exact ⟨_, rfl, by simp, rfl, rfl, rfl⟩
  | cons q N =>
    have hq := hN.ne q List.mem_cons_self
    have hqs := hs q List.mem_cons_self
    have hqe := he q List.mem_cons_self
    have hNq : ∀ p ∈ N, e ≤ p.1.1 := by
      intro p hp
      have := (List.pairwise_cons.1 hN.ord).1 p hp
      omega
    have a1 : N.flatMap (after e) = N := after_late (fun p hp => hN.ne p (List.mem_cons_of_mem _ hp)) hNq
    have c1 : N.filterMap (change s e) = [] := filterMap_nil_of (fun p hp => by unfold change; rw [if_pos]; exact .inr (hNq p hp))
    have g1 : (A ++ (q :: N).map (fun p => p.1.1))[A.length]? = some q.1.1 := by rw [List.getElem?_append_right (Nat.le_refl _)]; simp
    have g2 : (E ++ (q :: N).map (fun p => p.1.2))[A.length]? = some q.1.2 := by rw [hl, List.getElem?_append_right (Nat.le_refl _)]; simp
    rw [if_pos (by simp), g1, g2]
    simp only [R.unwrap_some, R.bind_ok, R.pure_eq]
    rw [List.flatMap_cons, List.filterMap_cons, a1, c1]
    by_cases h1 : q.1.1 < e
    · rw [if_pos h1, if_pos hqe]
      refine ⟨_, rfl, ?_, ?_, ?_, ?_⟩
      · simp [after, hqe, Nat.max_eq_right (Nat.le_of_lt h1)]
      · unfold change
        rw [if_neg (by omega), if_neg (by omega), if_neg (by omega)]
        rfl
      · simp [after, hqe]
      · simp [after, hqe]
    · rw [if_neg h1]
      have h1 : e ≤ q.1.1 := by omega
      refine ⟨_, rfl, ?_, ?_, ?_, ?_⟩
      · simp [after, hqe, Nat.max_eq_left h1]
      · unfold change
        rw [if_pos (by omega)]
        rfl
      · simp [after, hqe]
      · simp [after, hqe]

/-! ## The whole -/

theorem vecSplice_eq {α : Type} (a m b new : List α) : vecSplice (a ++ m ++ b) a.length (a.length + m.length) new = .ok (a ++ new ++ b, m) := by
  unfold vecSplice
  rw [show (decide (a.length ≤ a.length + m.length) && decide (a.length + m.length ≤ (a ++ m ++ b).length)) = true by simp, R.assert_true, R.bind_ok]
  have h1 : (a ++ m ++ b).take a.length = a := by rw [List.append_assoc, List.take_left]
  have h2 : (a ++ m ++ b).drop (a.length + m.length) = b := by rw [← List.length_append, List.drop_left]
  have h3 : (a ++ m ++ b).drop a.length = m ++ b := by rw [List.append_assoc, List.drop_left]
  rw [h1, h2, h3, Nat.add_sub_cancel_left, List.take_left]
  rfl

theorem takeWhile_split {α : Type} (f : α → Bool) (L : List α) : ∃ M N, L = M ++ N ∧ (∀ p ∈ M, f p = true) ∧ (∀ q N', N = q :: N' → f q = false) := by
  induction L with
  | nil => exact ⟨[], [], rfl, by simp, by simp⟩
  | cons p L ih =>
    cases hf : f p with
    | false => exact ⟨[], p :: L, rfl, by simp, fun q N' e => by cases e; exact hf⟩
    | true =>
      obtain ⟨M, N, h1, h2, h3⟩ := ih
      refine ⟨p :: M, N, by rw [h1]; rfl, fun q hq => ?_, h3⟩
      rcases List.mem_cons.1 hq with rfl | hq
      · exact hf
      · exact h2 q hq

theorem splice_spec {L : List (Entry V)} (h : Good L) {s e : Nat} (hse : s < e) (val : Option V) :
    (ofList L).splice s e val = .ok (ofList (spliced L s e val), L.filterMap (change s e)) := by
  obtain ⟨A, rest, rfl, hA, hR⟩ := takeWhile_split (fun p : Entry V => decide (p.1.1 < s)) L
  replace hA : ∀ p ∈ A, p.1.1 < s := fun p hp => by simpa using hA p hp
  replace hR : ∀ p ∈ rest, s ≤ p.1.1 := by
    cases rest with
    | nil => simp
    | cons q N =>
      have hq : s ≤ q.1.1 := by simpa using hR q N rfl
      intro p hp
      rcases List.mem_cons.1 hp with rfl | hp
      · exact hq
      · have := (List.pairwise_cons.1 h.right.ord).1 p hp
        have := h.right.ne q List.mem_cons_self
        omega
  obtain ⟨M, N, rfl, hM, hN⟩ := takeWhile_split (fun p : Entry V => decide (p.1.2 ≤ e)) rest
  have hM : ∀ p ∈ M, p.1.2 ≤ e := fun p hp => by simpa using hM p hp
  have hN : ∀ p ∈ N, e < p.1.2 := by
    cases N with
    | nil => simp
    | cons q N =>
      have hq : e < q.1.2 := by simpa using hN q N rfl
      intro p hp
      rcases List.mem_cons.1 hp with rfl | hp
      · exact hq
      · have := (List.pairwise_cons.1 h.right.right.ord).1 p hp
        have := h.right.right.ne p (List.mem_cons_of_mem _ hp)
        omega
  have hRM : ∀ p ∈ M, s ≤ p.1.1 := fun p hp => hR p (List.mem_append_left _ hp)
  have hRN : ∀ p ∈ N, s ≤ p.1.1 := fun p hp => hR p (List.mem_append_right _ hp)
  -- searching for the start
  have hi : (search (ofList (A ++ (M ++ N))).starts s).2 = A.length := by
    show (search ((A ++ (M ++ N)).map _) s).2 = _
    rw [List.map_append, search_append]
    · simp
    · intro y hy; obtain ⟨p, hp, rfl⟩ := List.mem_map.1 hy; exact hA p hp
    · intro y hy; obtain ⟨p, hp, rfl⟩ := List.mem_map.1 hy; exact hR p hp
  obtain ⟨l, l1, l2, l3, l4⟩ := left_spec h hse hA
  have hmap : A.flatMap (before s) = A.map (fun p => ((p.1.1, min p.1.2 s), p.2)) := by
    clear l1 l2 l3 l4 hi h
    induction A with
    | nil => rfl
    | cons p A ih =>
      rw [List.flatMap_cons, ih (fun q hq => hA q (List.mem_cons_of_mem _ hq))]
      unfold before
      rw [if_pos (hA p List.mem_cons_self)]
      rfl
  have hlen : ((A.flatMap (before s)).map (fun p => p.1.2)).length = A.length := by rw [hmap]; simp
  -- searching for the end
  have hj : spliceEnd l.ends e = A.length + M.length := by
    rw [l2, List.map_append, ← List.append_assoc, spliceEnd_eq]
    · rw [List.length_append, hlen, List.length_map]
    · intro a ha
      rcases List.mem_append.1 ha with ha | ha
      · obtain ⟨p, hp, rfl⟩ := List.mem_map.1 ha
        rw [hmap] at hp
        obtain ⟨q, hq, rfl⟩ := List.mem_map.1 hp
        dsimp only
        omega
      · obtain ⟨p, hp, rfl⟩ := List.mem_map.1 ha
        exact hM p hp
    · rw [List.pairwise_append]
      refine ⟨?_, ?_, ?_⟩
      · rw [hmap, List.map_map, List.pairwise_map]
        refine List.Pairwise.imp_of_mem ?_ h.left.ord
        intro p q hp hq hpq
        have := hA q hq
        have := h.left.ne q hq
        dsimp only [Function.comp]
        omega
      · rw [List.pairwise_map]
        refine List.Pairwise.imp_of_mem ?_ h.right.left.ord
        intro p q hp hq hpq
        have := h.right.left.ne q hq
        omega
      · intro a ha b hb
        obtain ⟨q, hq, rfl⟩ := List.mem_map.1 hb
        obtain ⟨p', hp', rfl⟩ := List.mem_map.1 ha
        rw [hmap] at hp'
        obtain ⟨p, hp, rfl⟩ := List.mem_map.1 hp'
        have := h.cross hp (List.mem_append_left N hq)
        have := h.right.left.ne q hq
        dsimp only
        omega
    · intro a ha
      obtain ⟨p, hp, rfl⟩ := List.mem_map.1 ha
      exact hN p hp
  obtain ⟨r, r1, r2, r3, r4, r5⟩ := right_spec (V := V) (A := (A ++ M).map (fun p => p.1.1)) (E := (A.flatMap (before s)).map (fun p => p.1.2) ++ M.map (fun p => p.1.2))
    (s := s) (e := e) (by simp [hmap]) h.right.right hRN hN
  have hright : right (V := V) (ofList (A ++ (M ++ N))).starts l.ends (A.length + M.length) e = .ok r := by
    rw [← r1, l2]
    simp [ofList]
  have bM : M.flatMap (before s) = [] := flatMap_nil_of (fun p hp => by unfold before; rw [if_neg]; have := hRM p hp; omega)
  have bN : N.flatMap (before s) = [] := flatMap_nil_of (fun p hp => by unfold before; rw [if_neg]; have := hRN p hp; omega)
  have aM : M.flatMap (after e) = [] := flatMap_nil_of (fun p hp => by unfold after; rw [if_neg]; have := hM p hp; omega)
  have cM : M.filterMap (change s e) = M.map (fun p => .removed p.1 p.2) := by
    apply filterMap_map
    intro p hp
    have e1 := hRM p hp
    have e2 := hM p hp
    have e3 := h.right.left.ne p hp
    unfold change
    rw [if_neg (by omega), if_neg (by omega), if_pos e2]
  unfold IMap.splice
  rw [show decide (s < e) = true by simpa using hse, R.assert_true, R.bind_ok, hi]
  dsimp only
  rw [l1, R.bind_ok, hj]
  rw [hright, R.bind_ok]
  have v1 := vecSplice_eq (A.map (fun p => p.1.1)) (M.map (fun p => p.1.1)) ((N.flatMap (after e)).map (fun p => p.1.1))
    (((val.map (fun v => ((s, e), v))).toList ++ l.piece.toList).map (fun x => x.1.1))
  have v2 := vecSplice_eq ((A.flatMap (before s)).map (fun p => p.1.2)) (M.map (fun p => p.1.2)) (N.map (fun p => p.1.2))
    (((val.map (fun v => ((s, e), v))).toList ++ l.piece.toList).map (fun x => x.1.2))
  have v3 := vecSplice_eq (A.map (fun p => p.2)) (M.map (fun p => p.2)) (N.map (fun p => p.2))
    (((val.map (fun v => ((s, e), v))).toList ++ l.piece.toList).map (fun x => x.2))
  rw [hlen] at v2
  rw [List.length_map, List.length_map] at v1 v3
  rw [List.length_map] at v2
  have x1 : r.1 = A.map (fun p => p.1.1) ++ M.map (fun p => p.1.1) ++ (N.flatMap (after e)).map (fun p => p.1.1) := by rw [r2, List.map_append]
  have x2 : l.ends = (A.flatMap (before s)).map (fun p => p.1.2) ++ M.map (fun p => p.1.2) ++ N.map (fun p => p.1.2) := by rw [l2, List.map_append, List.append_assoc]
  have x3 : (ofList (A ++ (M ++ N))).vals = A.map (fun p => p.2) ++ M.map (fun p => p.2) ++ N.map (fun p => p.2) := by simp [ofList]
  rw [x1, x2, x3, v1, R.bind_ok, v2, R.bind_ok, v3, R.bind_ok]
  dsimp only
  rw [show decide (min (M.map (fun p => p.1.1)).length (M.map (fun p => p.1.2)).length ≤ (M.map (fun p => p.2)).length) = true by simp, R.assert_true, R.bind_ok, R.pure_eq]
  congr 1
  congr 1
  · unfold spliced ofList
    have f1 : (A ++ (M ++ N)).flatMap (before s) = A.flatMap (before s) := by rw [List.flatMap_append, List.flatMap_append, bM, bN, List.append_nil, List.append_nil]
    have f2 : (A ++ (M ++ N)).flatMap (after e) = l.piece.toList ++ N.flatMap (after e) := by rw [List.flatMap_append, List.flatMap_append, aM, List.nil_append, l3]
    rw [f1, f2]
    congr 1
    · simp only [List.map_append, hmap, List.map_map, List.append_assoc]; rfl
    · simp only [List.map_append, r4, List.append_assoc]
    · simp only [List.map_append, r5, hmap, List.map_map, List.append_assoc]; rfl
  · rw [List.filterMap_append, List.filterMap_append, cM, l4, r3, List.append_assoc]
    congr 2
    rw [List.zip_map', List.zip_map', List.map_map]
    rfl

/-! ## Entries after a splice -/

theorem mem_before {s : Nat} {p q : Entry V} : q ∈ before s p ↔ p.1.1 < s ∧ q = ((p.1.1, min p.1.2 s), p.2) := by
  unfold before; split <;> simp [*]

theorem mem_after {e : Nat} {p q : Entry V} : q ∈ after e p ↔ e < p.1.2 ∧ q = ((max p.1.1 e, p.1.2), p.2) := by
  unfold after; split <;> simp [*]

theorem pieces_pairwise {f : Entry V → List (Entry V)} (h1 : ∀ p q, q ∈ f p → p.1.1 ≤ q.1.1 ∧ q.1.2 ≤ p.1.2) (h2 : ∀ p, (f p).length ≤ 1) {L : List (Entry V)}
    (h : L.Pairwise (fun p q => p.1.2 ≤ q.1.1)) : (L.flatMap f).Pairwise (fun p q => p.1.2 ≤ q.1.1) := by
  rw [List.pairwise_flatMap]
  refine ⟨fun p _ => ?_, List.Pairwise.imp ?_ h⟩
  · have := h2 p
    match hf : f p with
    | [] => exact .nil
    | [a] => simp
    | a :: b :: c => rw [hf] at this; simp at this
  · intro p q hpq x hx y hy
    have := h1 p x hx
    have := h1 q y hy
    omega

theorem spliced_good {L : List (Entry V)} (h : Good L) {s e : Nat} (hse : s < e) (val : Option V) : Good (spliced L s e val) := by
  have hv : ∀ q ∈ (val.map (fun v => ((s, e), v))).toList, q.1 = (s, e) := by
    intro q hq
    cases val with
    | none => cases hq
    | some v => simp at hq; rw [hq]
  refine ⟨fun q hq => ?_, ?_⟩
  · unfold spliced at hq
    simp only [List.mem_append, List.mem_flatMap, mem_before, mem_after] at hq
    rcases hq with (⟨p, hp, h1, rfl⟩ | hq) | ⟨p, hp, h1, rfl⟩
    · have := h.ne p hp; dsimp only; omega
    · rw [hv q hq]; exact hse
    · have := h.ne p hp; dsimp only; omega
  · unfold spliced
    rw [List.pairwise_append, List.pairwise_append]
    refine ⟨⟨?_, ?_, ?_⟩, ?_, ?_⟩
    · refine pieces_pairwise (fun p q hq => ?_) (fun p => ?_) h.ord
      · rw [mem_before] at hq; rw [hq.2]; dsimp only; omega
      · unfold before; split <;> simp
    · cases val <;> simp
    · intro p hp q hq
      rw [List.mem_flatMap] at hp
      obtain ⟨p', hp', hb⟩ := hp
      rw [mem_before] at hb
      rw [hb.2, hv q hq]
      dsimp only
      omega
    · refine pieces_pairwise (fun p q hq => ?_) (fun p => ?_) h.ord
      · rw [mem_after] at hq; rw [hq.2]; dsimp only; omega
      · unfold after; split <;> simp
    · intro p hp q hq
      rw [List.mem_flatMap] at hq
      obtain ⟨q', hq', ha⟩ := hq
      rw [mem_after] at ha
      rw [ha.2]
      dsimp only
      rcases List.mem_append.1 hp with hp | hp
      · rw [List.mem_flatMap] at hp
        obtain ⟨p', hp', hb⟩ := hp
        rw [mem_before] at hb
        rw [hb.2]
        dsimp only
        omega
      · rw [hv p hp]
        dsimp only
        omega

/-! ## Values at points -/

/-- The value at a point, if any. -/
def Holds (L : List (Entry V)) (x : Nat) (v : Option V) : Prop :=
  (∀ p ∈ L, p.covers x → v = some p.2) ∧ (∀ u, v = some u → ∃ p ∈ L, p.covers x ∧ p.2 = u)

theorem spliced_holds {L : List (Entry V)} {s e : Nat} (val : Option V) {x : Nat} {v : Option V} (h : Holds L x v) :
    Holds (spliced L s e val) x (if s ≤ x ∧ x < e then val else v) := by
  have mem : ∀ q, q ∈ spliced L s e val ↔ (∃ p ∈ L, p.1.1 < s ∧ q = ((p.1.1, min p.1.2 s), p.2)) ∨ (∃ u, val = some u ∧ q = ((s, e), u)) ∨
      ∃ p ∈ L, e < p.1.2 ∧ q = ((max p.1.1 e, p.1.2), p.2) := by
    intro q
    unfold spliced
    simp only [List.mem_append, List.mem_flatMap, mem_before, mem_after, or_assoc]
    cases val with
    | none => simp
    | some u => simp
  constructor
  · intro q hq hc
    rw [mem] at hq
    unfold Entry.covers at hc
    rcases hq with ⟨p, hp, h1, rfl⟩ | ⟨u, rfl, rfl⟩ | ⟨p, hp, h1, rfl⟩
    · dsimp only at hc ⊢
      rw [if_neg (by omega)]
      exact h.1 p hp (by unfold Entry.covers; omega)
    · dsimp only at hc ⊢
      rw [if_pos hc]
    · dsimp only at hc ⊢
      rw [if_neg (by omega)]
      exact h.1 p hp (by unfold Entry.covers; omega)
  · intro u hu
    by_cases hx : s ≤ x ∧ x < e
    · rw [if_pos hx] at hu
      exact ⟨((s, e), u), (mem _).2 (.inr (.inl ⟨u, hu, rfl⟩)), hx, rfl⟩
    · rw [if_neg hx] at hu
      obtain ⟨p, hp, hc, hv⟩ := h.2 u hu
      unfold Entry.covers at hc
      by_cases hxs : x < s
      · exact ⟨((p.1.1, min p.1.2 s), p.2), (mem _).2 (.inl ⟨p, hp, by omega, rfl⟩), by unfold Entry.covers; dsimp only; omega, hv⟩
      · exact ⟨((max p.1.1 e, p.1.2), p.2), (mem _).2 (.inr (.inr ⟨p, hp, by omega, rfl⟩)), by unfold Entry.covers; dsimp only; omega, hv⟩

theorem items_ofList (L : List (Entry V)) : (ofList L).items 0 = L := by
  unfold IMap.items ofList
  simp only [List.drop_zero]
  rw [List.zip_map', List.zip_map']
  exact List.map_id _

theorem items_drop (L : List (Entry V)) (i : Nat) : (ofList L).items i = L.drop i := by
  unfold IMap.items ofList
  simp only [← List.map_drop]
  rw [List.zip_map', List.zip_map']
  exact List.map_id _

/-- Where the entries begin that have to do with the points from `x` on. -/
theorem search_entries {L : List (Entry V)} (h : Good L) (x : Nat) : ∃ A B, L = A ++ B ∧ (∀ p ∈ A, p.1.1 < x) ∧ (∀ p ∈ B, x ≤ p.1.1) ∧
    search (ofList L).starts x = ((B.map (fun p => p.1.1))[0]? == some x, A.length) := by
  obtain ⟨A, B, rfl, hA, hB⟩ := takeWhile_split (fun p : Entry V => decide (p.1.1 < x)) L
  replace hA : ∀ p ∈ A, p.1.1 < x := fun p hp => by simpa using hA p hp
  replace hB : ∀ p ∈ B, x ≤ p.1.1 := by
    cases B with
    | nil => simp
    | cons q N =>
      have hq : x ≤ q.1.1 := by simpa using hB q N rfl
      intro p hp
      rcases List.mem_cons.1 hp with rfl | hp
      · exact hq
      · have := (List.pairwise_cons.1 h.right.ord).1 p hp
        have := h.right.ne q List.mem_cons_self
        omega
  refine ⟨A, B, rfl, hA, hB, ?_⟩
  show search ((A ++ B).map _) x = _
  rw [List.map_append, search_append, List.length_map]
  · intro y hy; obtain ⟨p, hp, rfl⟩ := List.mem_map.1 hy; exact hA p hp
  · intro y hy; obtain ⟨p, hp, rfl⟩ := List.mem_map.1 hy; exact hB p hp

theorem get_at {L : List (Entry V)} {i : Nat} {p : Entry V} (h : L[i]? = some p) :
    (ofList L).starts[i]? = some p.1.1 ∧ (ofList L).ends[i]? = some p.1.2 ∧ (ofList L).vals[i]? = some p.2 := by
  unfold ofList
  simp [h]

theorem get_spec {L : List (Entry V)} (h : Good L) (x : Nat) : ∃ r, (ofList L).get x = .ok r ∧ (∀ p : Entry V, r = some p → p ∈ L ∧ p.covers x) ∧
    (r = none → ∀ p ∈ L, ¬ p.covers x) := by
  obtain ⟨A, B, rfl, hA, hB, hs⟩ := search_entries h x
  have fin : ∀ {i : Nat} {p : Entry V}, (A ++ B)[i]? = some p → (ofList (A ++ B)).getIndex x = .ok (some i) → (ofList (A ++ B)).get x = .ok (some p) := by
    intro i p h1 h2
    obtain ⟨g1, g2, g3⟩ := get_at h1
    unfold IMap.get
    rw [h2, R.bind_ok]
    dsimp only
    rw [g1, g2, g3]
    rfl
  have non : (ofList (A ++ B)).getIndex x = .ok none → (ofList (A ++ B)).get x = .ok none := by
    intro h2
    unfold IMap.get
    rw [h2]
    rfl
  unfold IMap.getIndex at fin non
  rw [hs] at fin non
  dsimp only at fin non
  by_cases hf : ((B.map (fun p => p.1.1))[0]? == some x) = true
  · -- found
    cases B with
    | nil => simp at hf
    | cons q B =>
      have hq : q.1.1 = x := by simpa using hf
      have hi : (A ++ q :: B)[A.length]? = some q := by simp
      refine ⟨some q, fin hi (by rw [if_pos hf]; rfl), ?_, (fun e => by cases e)⟩
      intro p hp
      cases hp
      have := h.right.ne q List.mem_cons_self
      exact ⟨by simp, by unfold Entry.covers; omega⟩
  · rw [if_neg hf] at fin non
    have hB2 : ∀ p ∈ B, ¬ p.covers x := by
      intro p hp hc
      unfold Entry.covers at hc
      have h1 := hB p hp
      have hpx : p.1.1 = x := by omega
      cases B with
      | nil => cases hp
      | cons q B =>
        have hq := hB q List.mem_cons_self
        rcases List.mem_cons.1 hp with rfl | hp
        · exact hf (by simp [hpx])
        · have := (List.pairwise_cons.1 h.right.ord).1 p hp
          have := h.right.ne q List.mem_cons_self
          omega
    rcases List.eq_nil_or_concat A with rfl | ⟨A', p, rfl⟩
    · refine ⟨none, non rfl, (fun _ e => by cases e), fun _ p hp => hB2 p (by simpa using hp)⟩
    · rw [List.concat_eq_append] at *
      have hi : (A' ++ [p] ++ B)[(A' ++ [p]).length - 1]? = some p := by
        rw [List.append_assoc, List.getElem?_append_right (by simp)]
        simp
      obtain ⟨_, g2, _⟩ := get_at hi
      rw [if_neg (by simp), g2, R.unwrap_some, R.bind_ok] at fin non
      have hp1 : p.1.1 < x := hA p (by simp)
      by_cases hx : x < p.1.2
      · rw [if_pos hx] at fin
        refine ⟨some p, fin hi rfl, ?_, (fun e => by cases e)⟩
        intro q hq
        cases hq
        exact ⟨by simp, by unfold Entry.covers; omega⟩
      · rw [if_neg hx] at non
        refine ⟨none, non rfl, (fun _ e => by cases e), fun _ q hq => ?_⟩
        rcases List.mem_append.1 hq with hq | hq
        · rcases List.mem_append.1 hq with hq | hq
          · have := h.left.cross hq (List.mem_singleton.2 rfl)
            unfold Entry.covers
            omega
          · rw [List.mem_singleton] at hq
            subst hq
            unfold Entry.covers
            omega
        · exact hB2 q hq

theorem iterFrom_spec {L : List (Entry V)} (h : Good L) (x : Nat) : (ofList L).iterFrom x = .ok (L.filter (fun p => decide (x < p.1.2))) := by
  obtain ⟨A, B, rfl, hA, hB, hs⟩ := search_entries h x
  have keep : B.filter (fun p => decide (x < p.1.2)) = B := by
    rw [List.filter_eq_self]
    intro p hp
    have := hB p hp
    have := h.right.ne p hp
    simp; omega
  unfold IMap.iterFrom
  rw [hs]
  dsimp only
  by_cases hf : ((B.map (fun p => p.1.1))[0]? == some x) = true
  · rw [if_pos hf, items_drop, List.drop_left, List.filter_append, keep]
    have : A.filter (fun p => decide (x < p.1.2)) = [] := by
      rw [List.filter_eq_nil_iff]
      intro p hp
      cases B with
      | nil => simp at hf
      | cons q B =>
        have hq : q.1.1 = x := by simpa using hf
        have := h.cross hp (List.mem_cons_self (a := q))
        simp; omega
    rw [this]
    rfl
  · rw [if_neg hf]
    rcases List.eq_nil_or_concat A with rfl | ⟨A', p, rfl⟩
    · rw [if_neg (by simp), items_drop]
      simp only [List.nil_append, List.length_nil, List.drop_zero]
      rw [keep]
      rfl
    · rw [List.concat_eq_append] at *
      have hi : (A' ++ [p] ++ B)[(A' ++ [p]).length - 1]? = some p := by
        rw [List.append_assoc, List.getElem?_append_right (by simp)]
        simp
      obtain ⟨_, g2, _⟩ := get_at hi
      rw [if_pos (by simp), g2, R.unwrap_some, R.bind_ok, List.filter_append, List.filter_append, keep]
      have hA' : A'.filter (fun p => decide (x < p.1.2)) = [] := by
        rw [List.filter_eq_nil_iff]
        intro q hq
        have := h.left.cross hq (List.mem_singleton.2 rfl)
        have := hA p (by simp)
        simp; omega
      rw [hA', List.nil_append]
      by_cases hx : x < p.1.2
      · rw [if_pos hx, items_drop, List.filter_cons_of_pos (by simpa using hx)]
        simp [List.append_assoc]
      · rw [if_neg hx, items_drop, List.filter_cons_of_neg (by simpa using hx), List.drop_left]
        rfl

/-! ## Mutations -/

def Mutation.interval : Mutation V → Nat × Nat
  | .modifiedBegin i _ => i
  | .modifiedEnd i _ => i
  | .split i _ _ => i
  | .removed i _ => i

theorem change_interval {s e : Nat} {p : Entry V} {m : Mutation V} (h : change s e p = some m) : m.interval = p.1 := by
  unfold change at h
  split at h
  · cases h
  · split at h
    · split at h <;> cases h <;> rfl
    · split at h <;> cases h <;> rfl

/-- What a list of mutations says of an entry: the pieces that are left. -/
def remains (ms : List (Mutation V)) (p : Entry V) : List (Entry V) :=
  match ms.find? (fun m => m.interval == p.1) with
  | none => [p]
  | some (.modifiedBegin _ b) => [((b, p.1.2), p.2)]
  | some (.modifiedEnd _ e) => [((p.1.1, e), p.2)]
  | some (.split _ l r) => [(l, p.2), (r, p.2)]
  | some (.removed _ _) => []

theorem Good.inj {L : List (Entry V)} (h : Good L) {p q : Entry V} (hp : p ∈ L) (hq : q ∈ L) (e : p.1 = q.1) : p = q := by
  induction L with
  | nil => cases hp
  | cons a L ih =>
    have hc := List.pairwise_cons.1 h.ord
    have ih := ih ⟨fun x hx => h.ne x (List.mem_cons_of_mem _ hx), hc.2⟩
    have ha := h.ne a List.mem_cons_self
    rcases List.mem_cons.1 hp with rfl | hp'
    · rcases List.mem_cons.1 hq with rfl | hq'
      · rfl
      · have := hc.1 q hq'; rw [← e] at this; omega
    · rcases List.mem_cons.1 hq with rfl | hq'
      · have := hc.1 p hp'; rw [e] at this; omega
      · exact ih hp' hq'

theorem find_change {L : List (Entry V)} (h : Good L) (s e : Nat) {p : Entry V} (hp : p ∈ L) :
    (L.filterMap (change s e)).find? (fun m => m.interval == p.1) = change s e p := by
  cases hc : change s e p with
  | none =>
    rw [List.find?_eq_none]
    intro m hm
    rw [List.mem_filterMap] at hm
    obtain ⟨q, hq, hm⟩ := hm
    intro hi
    have hi : m.interval = p.1 := by simpa using hi
    rw [change_interval hm] at hi
    rw [h.inj hq hp hi, hc] at hm
    cases hm
  | some c =>
    cases hf : (L.filterMap (change s e)).find? (fun m => m.interval == p.1) with
    | none =>
      rw [List.find?_eq_none] at hf
      exact absurd (by simpa using change_interval hc) (hf c (List.mem_filterMap.2 ⟨p, hp, hc⟩))
    | some m =>
      have h1 := List.mem_of_find?_eq_some hf
      have h2 := List.find?_some hf
      rw [List.mem_filterMap] at h1
      obtain ⟨q, hq, hm⟩ := h1
      have hi : m.interval = p.1 := by simpa using h2
      rw [change_interval hm] at hi
      rw [h.inj hq hp hi, hc] at hm
      exact hm.symm

theorem remains_eq {L : List (Entry V)} (h : Good L) {s e : Nat} (hse : s < e) {p : Entry V} (hp : p ∈ L) :
    remains (L.filterMap (change s e)) p = before s p ++ after e p := by
  unfold remains
  rw [find_change h s e hp]
  have hn := h.ne p hp
  unfold change before after
  by_cases h1 : p.1.2 ≤ s
  · rw [if_pos (.inl h1), if_pos (by omega), if_neg (by omega), Nat.min_eq_left h1]; rfl
  by_cases h2 : e ≤ p.1.1
  · rw [if_pos (.inr h2), if_neg (by omega), if_pos (by omega), Nat.max_eq_left h2]; rfl
  rw [if_neg (by omega)]
  by_cases h3 : p.1.1 < s
  · rw [if_pos h3, if_pos h3, Nat.min_eq_right (by omega)]
    by_cases h4 : p.1.2 ≤ e
    · rw [if_pos h4, if_neg (by omega)]; rfl
    · rw [if_neg h4, if_pos (by omega), Nat.max_eq_right (by omega)]; rfl
  · rw [if_neg h3, if_neg h3]
    by_cases h4 : p.1.2 ≤ e
    · rw [if_pos h4, if_neg (by omega)]; rfl
    · rw [if_neg h4, if_pos (by omega), Nat.max_eq_right (by omega)]; rfl

/-! ## Histories -/

/-- Histories of insertions (`some`) and clearings (`none`), with the value at every point. -/
inductive Run : IMap V → (Nat → Option V) → Prop where
  | new : Run IMap.new (fun _ => none)
  | splice {m f s e val m' ms} : Run m f → m.splice s e val = .ok (m', ms) → Run m' (fun x => if s ≤ x ∧ x < e then val else f x)

theorem splice_lt {m m' : IMap V} {s e : Nat} {val : Option V} {ms} (h : m.splice s e val = .ok (m', ms)) : s < e := by
  unfold IMap.splice at h
  rw [R.bind_eq_ok] at h
  obtain ⟨_, h1, _⟩ := h
  rw [R.assert_eq_ok] at h1
  simpa using h1

theorem run_inv {m : IMap V} {f : Nat → Option V} (h : Run m f) : ∃ L, m = ofList L ∧ Good L ∧ ∀ x, Holds L x (f x) := by
  induction h with
  | new => exact ⟨[], rfl, ⟨by simp, .nil⟩, fun x => ⟨by simp, (fun _ e => by cases e)⟩⟩
  | @splice m f s e val m' ms _ hs ih =>
    obtain ⟨L, rfl, hG, hH⟩ := ih
    have hse := splice_lt hs
    rw [splice_spec hG hse val] at hs
    have hs := Prod.mk.inj (R.ok.inj hs)
    exact ⟨_, hs.1.symm, spliced_good hG hse val, fun x => spliced_holds val (hH x)⟩

/-- C41: the stored intervals are not empty, in order and disjoint. -/
theorem C41_sorted {m : IMap V} {f : Nat → Option V} (h : Run m f) :
    (∀ p ∈ m.items 0, p.1.1 < p.1.2) ∧ (m.items 0).Pairwise (fun p q => p.1.2 ≤ q.1.1) ∧ m.starts.length = m.ends.length ∧ m.ends.length = m.vals.length := by
  obtain ⟨L, rfl, hG, _⟩ := run_inv h
  rw [items_ofList]
  exact ⟨hG.ne, hG.ord, by simp [ofList], by simp [ofList]⟩

/-- C41: looking up a point gives the value of the last operation that covered it, with an interval that contains it; it never
    fails. -/
theorem C41_get {m : IMap V} {f : Nat → Option V} (h : Run m f) (x : Nat) :
    ∃ r, m.get x = .ok r ∧ r.map (fun p => p.2) = f x ∧ ∀ p, r = some p → p ∈ m.items 0 ∧ p.1.1 ≤ x ∧ x < p.1.2 := by
  obtain ⟨L, rfl, hG, hH⟩ := run_inv h
  obtain ⟨r, h1, h2, h3⟩ := get_spec hG x
  rw [items_ofList]
  refine ⟨r, h1, ?_, fun p hp => h2 p hp⟩
  cases r with
  | none =>
    cases hf : f x with
    | none => rfl
    | some u =>
      obtain ⟨p, hp, hc, _⟩ := (hH x).2 u hf
      exact absurd hc (h3 rfl p hp)
  | some p =>
    obtain ⟨hp, hc⟩ := h2 p rfl
    exact ((hH x).1 p hp hc).symm

/-- C41: `iter_from` yields the entries from the first that contains or follows the point on. -/
theorem C41_iter_from {m : IMap V} {f : Nat → Option V} (h : Run m f) (x : Nat) :
    m.iterFrom x = .ok ((m.items 0).filter (fun p => decide (x < p.1.2))) := by
  obtain ⟨L, rfl, hG, _⟩ := run_inv h
  rw [items_ofList, iterFrom_spec hG]

/-- C41: insertions and clearings fail for empty intervals only. -/
theorem C41_total {m : IMap V} {f : Nat → Option V} (h : Run m f) (s e : Nat) (val : Option V) :
    (s < e → ∃ m' ms, m.splice s e val = .ok (m', ms)) ∧ (¬ s < e → m.splice s e val = .panic) := by
  obtain ⟨L, rfl, hG, _⟩ := run_inv h
  refine ⟨fun hse => ⟨_, _, splice_spec hG hse val⟩, fun hse => ?_⟩
  unfold IMap.splice
  rw [show decide (s < e) = false by simpa using hse, R.assert_false]
  rfl

/-- C41: the reported mutations are those of the entries that the interval overlaps, in order; and the new entries are the
    value that was inserted and what the mutations say is left of the old ones. -/
theorem C41_mutations {m : IMap V} {f : Nat → Option V} (h : Run m f) {s e : Nat} {val : Option V} {m' : IMap V} {ms : List (Mutation V)}
    (hs : m.splice s e val = .ok (m', ms)) :
    ms = (m.items 0).filterMap (change s e) ∧
    (∀ q, q ∈ m'.items 0 ↔ (∃ v, val = some v ∧ q = ((s, e), v)) ∨ ∃ p ∈ m.items 0, q ∈ remains ms p) ∧
    (∀ i v, Mutation.removed i v ∈ ms → (i, v) ∈ m.items 0) ∧
    ∀ u ∈ ms, ∃ p ∈ m.items 0, u.interval = p.1 := by
  obtain ⟨L, rfl, hG, _⟩ := run_inv h
  have hse := splice_lt hs
  rw [splice_spec hG hse val] at hs
  obtain ⟨e1, e2⟩ := Prod.mk.inj (R.ok.inj hs)
  rw [items_ofList, ← e1, ← e2, items_ofList]
  refine ⟨rfl, fun q => ?_, fun i v hm => ?_, fun u hm => ?_⟩
  · have h1 : (∃ p ∈ L, q ∈ remains (L.filterMap (change s e)) p) ↔ ∃ p ∈ L, q ∈ before s p ++ after e p := by
      constructor
      · rintro ⟨p, hp, hq⟩; exact ⟨p, hp, by rw [← remains_eq hG hse hp]; exact hq⟩
      · rintro ⟨p, hp, hq⟩; exact ⟨p, hp, by rw [remains_eq hG hse hp]; exact hq⟩
    rw [h1]
    unfold spliced
    simp only [List.mem_append, List.mem_flatMap]
    have hv : q ∈ (val.map (fun v => ((s, e), v))).toList ↔ ∃ v, val = some v ∧ q = ((s, e), v) := by
      cases val <;> simp
    rw [hv]
    constructor
    · rintro ((⟨p, hp, hq⟩ | hq) | ⟨p, hp, hq⟩)
      · exact .inr ⟨p, hp, .inl hq⟩
      · exact .inl hq
      · exact .inr ⟨p, hp, .inr hq⟩
    · rintro (hq | ⟨p, hp, hq | hq⟩)
      · exact .inl (.inr hq)
      · exact .inl (.inl ⟨p, hp, hq⟩)
      · exact .inr ⟨p, hp, hq⟩
  · rw [List.mem_filterMap] at hm
    obtain ⟨p, hp, hc⟩ := hm
    unfold change at hc
    split at hc
    · cases hc
    · split at hc
      · split at hc <;> cases hc
      · split at hc
        · cases hc; exact hp
        · cases hc
  · rw [List.mem_filterMap] at hm
    obtain ⟨p, hp, hc⟩ := hm
    exact ⟨p, hp, change_interval hc⟩

/-! ## Examples -/

/-- Operations one after another, with the mutations of the last. -/
def exec (os : List (Nat × Nat × Option String)) : R (IMap String × List (Mutation String)) :=
  os.foldl (fun r o => r >>= fun x => x.1.splice o.1 o.2.1 o.2.2) (.ok (IMap.new, []))

theorem exec_run (os : List (Nat × Nat × Option String)) : ∀ {m ms}, exec os = .ok (m, ms) → ∃ f, Run m f := by
  have : ∀ (os : List (Nat × Nat × Option String)) (r : R (IMap String × List (Mutation String))), (∀ m ms, r = .ok (m, ms) → ∃ f, Run m f) →
      ∀ m ms, os.foldl (fun r o => r >>= fun x => x.1.splice o.1 o.2.1 o.2.2) r = .ok (m, ms) → ∃ f, Run m f := by
    intro os
    induction os with
    | nil => intro r hr m ms h; exact hr m ms h
    | cons o os ih =>
      intro r hr m ms h
      refine ih _ ?_ m ms h
      intro m1 ms1 h1
      rw [R.bind_eq_ok] at h1
      obtain ⟨x, hx, h1⟩ := h1
      obtain ⟨f, hf⟩ := hr x.1 x.2 hx
      exact ⟨_, hf.splice h1⟩
  intro m ms h
  exact this os (.ok (IMap.new, [])) (fun m ms h => by cases h; exact ⟨_, .new⟩) m ms h

example : exec [(0, 10, some "a"), (20, 30, some "b"), (30, 40, some "c"), (5, 35, some "d")] =
    .ok (⟨[0, 5, 35], [5, 35, 40], ["a", "d", "c"]⟩, [.modifiedEnd (0, 10) 5, .removed (20, 30) "b", .modifiedBegin (30, 40) 35]) := by decide +kernel

example : exec [(0, 10, some "a"), (3, 6, none)] = .ok (⟨[0, 6], [3, 10], ["a", "a"]⟩, [.split (0, 10) (0, 3) (6, 10)]) := by decide +kernel

end Shadow.IntervalMap
