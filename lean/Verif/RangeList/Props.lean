import Verif.RangeList.Model
import Verif.ProcMaps.Props
/-!
# C86: lists of processors are read as they are written
-/
namespace Shadow.RangeList

open Shadow.Base
open Shadow.ProcMaps (parseU parseU_iff Num)

/-! ## The specification -/

/-- What is between two commas: nothing, a number, or two numbers with a dash. -/
inductive Piece : List Char → List Nat → Prop
  | empty : Piece [] []
  | one (a : List Char) (n : Nat) (ha : Num 10 a n) (hn : n < 4294967296) : Piece a [n]
  | range (a b : List Char) (n m : Nat) (ha : Num 10 a n) (hn : n < 4294967296) (hb : Num 10 b m) (hm : m < 4294967296) : Piece (a ++ '-' :: b) (List.range' n (m + 1 - n))

/-- The numbers a text stands for, and whether it is malformed after them. -/
inductive Ranges : List Char → List Nat → Bool → Prop
  | last (p : List Char) (l : List Nat) (hc : ',' ∉ p) (hp : Piece p l) : Ranges p l false
  | more (p rest : List Char) (l l' : List Nat) (b : Bool) (hc : ',' ∉ p) (hp : Piece p l) (hr : Ranges rest l' b) : Ranges (p ++ ',' :: rest) (l ++ l') b
  | badLast (p : List Char) (hc : ',' ∉ p) (hp : ∀ l, ¬ Piece p l) : Ranges p [] true
  | bad (p rest : List Char) (hc : ',' ∉ p) (hp : ∀ l, ¬ Piece p l) : Ranges (p ++ ',' :: rest) [] true

/-- What the iterator gives when it is called again and again: numbers, and then the end or a failure. -/
inductive Yields : St → List Nat → Bool → Prop
  | stop (s s' : St) (h : next s = some (.ok (none, s'))) : Yields s [] false
  | fail (s : St) (h : next s = some .panic) : Yields s [] true
  | item (s s' : St) (n : Nat) (l : List Nat) (b : Bool) (h : next s = some (.ok (some n, s'))) (hy : Yields s' l b) : Yields s (n :: l) b

/-! ## Lemmas -/

theorem splitOnce_none {l : List Char} : ',' ∉ l → splitOnce l = none := by
  induction l with
  | nil => intro _; rfl
  | cons c l ih =>
    intro h
    simp only [List.mem_cons, not_or] at h
    simp [splitOnce, Ne.symm h.1, ih h.2]

theorem splitOnce_cut {p : List Char} (rest : List Char) : ',' ∉ p → splitOnce (p ++ ',' :: rest) = some (p, rest) := by
  induction p with
  | nil => intro _; simp [splitOnce]
  | cons c l ih =>
    intro h
    simp only [List.mem_cons, not_or] at h
    simp [splitOnce, Ne.symm h.1, ih h.2]

theorem splitOnce_some {l a b : List Char} (h : splitOnce l = some (a, b)) : l = a ++ ',' :: b ∧ ',' ∉ a := by
  induction l generalizing a with
  | nil => cases h
  | cons c l ih =>
    simp only [splitOnce] at h
    split at h
    · rename_i hc; cases h; exact ⟨by simp [hc], by simp⟩
    · rename_i hc
      obtain ⟨⟨a', b'⟩, h1, h2⟩ := Option.map_eq_some_iff.mp h
      cases h2
      obtain ⟨e, hn⟩ := ih h1
      exact ⟨by rw [e]; rfl, by simp [hn, Ne.symm hc]⟩

theorem splitDash_none {l : List Char} : '-' ∉ l → splitDash l = (l, []) := by
  induction l with
  | nil => intro _; rfl
  | cons c l ih =>
    intro h
    simp only [List.mem_cons, not_or] at h
    simp [splitDash, Ne.symm h.1, ih h.2]

theorem splitDash_cut {p : List Char} (rest : List Char) : '-' ∉ p → splitDash (p ++ '-' :: rest) = (p, (splitDash rest).1 :: (splitDash rest).2) := by
  induction p with
  | nil => intro _; simp [splitDash]
  | cons c l ih =>
    intro h
    simp only [List.mem_cons, not_or] at h
    simp [splitDash, Ne.symm h.1, ih h.2]

theorem splitDash_join (l : List Char) : ∀ a more, splitDash l = (a, more) → '-' ∉ a ∧ (more = [] → l = a) ∧ ∀ e t, more = e :: t → ∃ rest, l = a ++ '-' :: rest ∧ splitDash rest = (e, t) := by
  induction l with
  | nil => intro a more h; cases h; simp
  | cons c l ih =>
    intro a more h
    simp only [splitDash] at h
    split at h
    · rename_i hc; cases h
      exact ⟨by simp, by simp, fun e t he => by cases he; exact ⟨l, by simp [hc], rfl⟩⟩
    · rename_i hc; cases h
      obtain ⟨h1, h2, h3⟩ := ih _ _ rfl
      refine ⟨by simp [h1, Ne.symm hc], fun h => by rw [← h2 h], fun e t he => ?_⟩
      obtain ⟨rest, e1, e2⟩ := h3 e t he
      exact ⟨rest, by rw [List.cons_append, ← e1], e2⟩

theorem num_clean {t : List Char} {n : Nat} (h : Num 10 t n) : t ≠ [] ∧ '-' ∉ t := by
  obtain ⟨ds, h0, hr, e⟩ := h
  have hd : '-' ∉ ds := fun hm => by
    obtain ⟨d, hd⟩ := hr.mem _ hm
    exact (hd.ne (x := '-') (by decide)) rfl
  rcases e with rfl | rfl
  · exact ⟨h0, hd⟩
  · exact ⟨by simp, by simp [hd]⟩

theorem Piece.nil {p : List Char} {l : List Nat} (h : Piece p l) (hp : p = []) : l = [] := by
  cases h with
  | empty => rfl
  | one _ n ha _ => exact absurd hp (num_clean ha).1
  | range a b => exact absurd hp (by simp)

theorem first_comma {l : List Char} (h : ',' ∈ l) : ∃ a b, l = a ++ ',' :: b ∧ ',' ∉ a := by
  induction l with
  | nil => cases h
  | cons c t ih =>
    by_cases hc : c = ','
    · exact ⟨[], t, by simp [hc], by simp⟩
    · obtain ⟨a, b, e, hn⟩ := ih (by simpa [Ne.symm hc] using h)
      exact ⟨c :: a, b, by rw [e]; rfl, by simp [hn, Ne.symm hc]⟩

theorem parse_iff {s : List Char} {n : Nat} : parseU 10 (2 ^ 32) s = some n ↔ Num 10 s n ∧ n < 4294967296 := parseU_iff (by decide) (by decide)

/-- The numbers that a range still gives. -/
def items (r : Rng) : List Nat := if r.exhausted then [] else List.range' r.lo (r.hi + 1 - r.lo)

theorem piece_spec (p : List Char) (hp : p ≠ []) : (∃ r, piece p = .ok r ∧ Piece p (items r) ∧ ∀ l, Piece p l → l = items r) ∨ (piece p = .panic ∧ ∀ l, ¬ Piece p l) := by
  -- the pieces that are accepted, with the result
  have fwd : ∀ l, Piece p l → ∃ r, piece p = .ok r ∧ l = items r := by
    intro l hl
    cases hl with
    | empty => exact absurd rfl hp
    | one _ n ha hn =>
      obtain ⟨_, hd⟩ := num_clean ha
      refine ⟨⟨n, n, false⟩, ?_, ?_⟩
      · simp [piece, hiOf, splitDash_none hd, parse_iff.mpr ⟨ha, hn⟩]
      · simp [items, show n + 1 - n = 1 by omega]
    | range a b n m ha hn hb hm =>
      obtain ⟨_, hd⟩ := num_clean ha
      obtain ⟨_, hd'⟩ := num_clean hb
      refine ⟨⟨n, m, false⟩, ?_, rfl⟩
      simp [piece, hiOf, splitDash_cut _ hd, splitDash_none hd', parse_iff.mpr ⟨ha, hn⟩, parse_iff.mpr ⟨hb, hm⟩]
  cases hr : piece p with
  | panic =>
    right
    refine ⟨rfl, fun l hl => ?_⟩
    obtain ⟨r, h1, _⟩ := fwd l hl
    rw [hr] at h1; cases h1
  | ok r =>
    left
    have hpc : Piece p (items r) := by
      unfold piece at hr
      cases hsd : splitDash p with
      | mk a more =>
        rw [hsd] at hr
        dsimp only at hr
        obtain ⟨h1, h2, h3⟩ := splitDash_join p a more hsd
        obtain ⟨_, e1, hr⟩ := R.bind_eq_ok.mp hr
        obtain ⟨lo, e2, hr⟩ := R.bind_eq_ok.mp hr
        obtain ⟨hi, e3, hr⟩ := R.bind_eq_ok.mp hr
        have hlen := of_decide_eq_true (R.assert_eq_ok.mp e1)
        cases hr
        have hlo : Num 10 a lo ∧ lo < 4294967296 := by
          cases hq : parseU 10 (2 ^ 32) a with
          | none => rw [hq] at e2; cases e2
          | some x => rw [hq] at e2; cases e2; exact parse_iff.mp hq
        cases more with
        | nil =>
          simp only [List.head?_nil, hiOf] at e3; cases e3
          rw [h2 rfl]
          have := Piece.one a lo hlo.1 hlo.2
          simpa [items, show lo + 1 - lo = 1 by omega] using this
        | cons e t =>
          cases t with
          | cons _ _ => simp at hlen
          | nil =>
            simp only [List.head?_cons, hiOf] at e3
            have hhi : Num 10 e hi ∧ hi < 4294967296 := by
              cases hq : parseU 10 (2 ^ 32) e with
              | none => rw [hq] at e3; cases e3
              | some x => rw [hq] at e3; cases e3; exact parse_iff.mp hq
            obtain ⟨rest, q1, q2⟩ := h3 e [] rfl
            obtain ⟨_, q3, _⟩ := splitDash_join rest e [] q2
            rw [q1, q3 rfl]
            exact Piece.range a e lo hi hlo.1 hlo.2 hhi.1 hhi.2
    refine ⟨r, rfl, hpc, fun l hl => ?_⟩
    obtain ⟨r', h1, h2⟩ := fwd l hl
    rw [hr] at h1; cases h1; exact h2

theorem size_pos (s : St) : 0 < size s := by simp [size]

theorem turn_size {s s' : St} (h : turn s = .again s') : size s' < size s := by
  unfold turn at h
  split at h
  · rename_i r hr
    split at h
    · cases h; simp [size, hr]
    · cases h
  · rename_i hc
    split at h
    · rename_i hne
      have hpos : 0 < s.rest.length := List.length_pos_iff.mpr hne
      have hlen : ((splitOnce s.rest).getD (s.rest, [])).2.length < s.rest.length := by
        cases hq : splitOnce s.rest with
        | none => simpa using hpos
        | some x =>
          obtain ⟨a, b⟩ := x
          obtain ⟨e, _⟩ := splitOnce_some hq
          rw [e]; simp; omega
      dsimp only at h
      split at h
      · cases h; simp only [size, hc]; simp; exact hlen
      · split at h
        · cases h
        · cases h; simp only [size, hc]; simp; omega
    · cases h

theorem loop_enough : ∀ (n : Nat) (s : St), size s ≤ n → ∀ f, size s ≤ f → loop f s = loop (size s) s := by
  intro n
  induction n with
  | zero => intro s h; simp [size] at h
  | succ n ih =>
    intro s hs f hf
    obtain ⟨f, rfl⟩ : ∃ g, f = g + 1 := ⟨f - 1, by have := size_pos s; omega⟩
    obtain ⟨g, hg⟩ : ∃ g, size s = g + 1 := ⟨size s - 1, by have := size_pos s; omega⟩
    rw [hg]
    simp only [loop]
    cases ht : turn s with
    | done r => rfl
    | again s' =>
      have := turn_size ht
      dsimp only
      rw [ih s' (by omega) f (by omega), ih s' (by omega) g (by omega)]

/-- The loop without a bound. -/
theorem next_eq (s : St) : next s = match turn s with | .done r => some r | .again s' => next s' := by
  obtain ⟨g, hg⟩ : ∃ g, size s = g + 1 := ⟨size s - 1, by have := size_pos s; omega⟩
  unfold next
  conv => lhs; rw [hg]
  simp only [loop]
  cases ht : turn s with
  | done r => rfl
  | again s' =>
    have := turn_size ht
    dsimp only
    exact loop_enough _ s' (Nat.le_refl _) g (by omega)

theorem next_again {s s' : St} (h : turn s = .again s') : next s = next s' := by rw [next_eq, h]

theorem Yields.congr {s s' : St} (h : next s = next s') {l : List Nat} {b : Bool} (hy : Yields s' l b) : Yields s l b := by
  cases hy with
  | stop _ s'' h' => exact .stop _ s'' (h.trans h')
  | fail _ h' => exact .fail _ (h.trans h')
  | item _ s'' n l b h' hy => exact .item _ s'' n l b (h.trans h') hy

/-- A range gives its numbers, and then comes what comes after it. -/
theorem Yields.range {rest : List Char} {l : List Nat} {b : Bool} (hy : Yields ⟨none, rest⟩ l b) : ∀ (k : Nat) (r : Rng), r.hi + 1 - r.lo ≤ k → Yields ⟨some r, rest⟩ (items r ++ l) b := by
  have base : ∀ r : Rng, r.next = none → Yields ⟨some r, rest⟩ l b := fun r hr => hy.congr (next_again (by simp [turn, hr]))
  intro k
  induction k with
  | zero =>
    intro r hk
    have hn : r.next = none := by unfold Rng.next; rw [if_pos (by right; omega)]
    have hi : items r = [] := by unfold items; split; rfl; rw [show r.hi + 1 - r.lo = 0 by omega]; rfl
    rw [hi]; exact base r hn
  | succ k ih =>
    intro r hk
    by_cases hx : r.exhausted = true ∨ r.hi < r.lo
    · have hn : r.next = none := by unfold Rng.next; rw [if_pos hx]
      have hi : items r = [] := by
        unfold items
        rcases hx with hx | hx
        · rw [if_pos hx]
        · split; rfl; rw [show r.hi + 1 - r.lo = 0 by omega]; rfl
      rw [hi]; exact base r hn
    · have hex : r.exhausted = false := by
        cases he : r.exhausted
        · rfl
        · exact absurd (.inl he) hx
      by_cases hlt : r.lo < r.hi
      · have hn : r.next = some (r.lo, { r with lo := r.lo + 1 }) := by unfold Rng.next; rw [if_neg hx, if_pos hlt]
        have hi : items r = r.lo :: items { r with lo := r.lo + 1 } := by
          simp only [items, hex, Bool.false_eq_true, if_false]
          rw [show r.hi + 1 - r.lo = (r.hi + 1 - (r.lo + 1)) + 1 by omega]; rfl
        rw [hi, List.cons_append]
        exact .item _ ⟨some { r with lo := r.lo + 1 }, rest⟩ _ _ _ (by rw [next_eq]; simp [turn, hn]) (ih _ (by simp; omega))
      · have he : r.lo = r.hi := by omega
        have hn : r.next = some (r.lo, { r with exhausted := true }) := by unfold Rng.next; rw [if_neg hx, if_neg hlt]
        have hi : items r = [r.lo] := by
          simp only [items, hex, Bool.false_eq_true, if_false]
          rw [show r.hi + 1 - r.lo = 1 by omega]; rfl
        rw [hi, List.cons_append, List.nil_append]
        exact .item _ ⟨some { r with exhausted := true }, rest⟩ _ _ _ (by rw [next_eq]; simp [turn, hn]) (base _ (by simp [Rng.next]))

theorem yields_end : Yields ⟨none, []⟩ [] false := .stop _ ⟨none, []⟩ (by rw [next_eq]; simp [turn])

/-- The first piece of a text and what is behind it. -/
theorem turn_piece {p rest text : List Char} (hp : p ≠ []) (hne : text ≠ []) (h : (splitOnce text).getD (text, []) = (p, rest)) :
    turn ⟨none, text⟩ = match piece p with | .panic => .done .panic | .ok r => .again ⟨some r, rest⟩ := by
  simp only [turn, hne, ne_eq, not_false_eq_true, if_true, h, hp, if_false]
  cases piece p <;> rfl

theorem yields_of {text : List Char} {l : List Nat} {b : Bool} (h : Ranges text l b) : Yields ⟨none, text⟩ l b := by
  induction h with
  | last p l hc hp =>
    by_cases h0 : p = []
    · subst h0
      have : l = [] := hp.nil rfl
      rw [this]; exact yields_end
    · rcases piece_spec p h0 with ⟨r, h1, _, h3⟩ | ⟨_, h2⟩
      · have ht := turn_piece h0 h0 (show (splitOnce p).getD (p, []) = (p, []) by rw [splitOnce_none hc]; rfl)
        rw [h1] at ht
        have := (yields_end.range _ r (Nat.le_refl _)).congr (next_again ht)
        rw [h3 l hp]; simpa using this
      · exact absurd hp (h2 l)
  | more p rest l l' b hc hp _ ih =>
    have hs : (splitOnce (p ++ ',' :: rest)).getD (p ++ ',' :: rest, []) = (p, rest) := by rw [splitOnce_cut rest hc]; rfl
    by_cases h0 : p = []
    · subst h0
      have : l = [] := hp.nil rfl
      rw [this]
      exact ih.congr (next_again (by simp [turn, splitOnce]))
    · rcases piece_spec p h0 with ⟨r, h1, _, h3⟩ | ⟨_, h2⟩
      · have ht := turn_piece h0 (by simp) hs
        rw [h1] at ht
        rw [h3 l hp]
        exact (ih.range _ r (Nat.le_refl _)).congr (next_again ht)
      · exact absurd hp (h2 l)
  | badLast p hc hp =>
    have h0 : p ≠ [] := fun e => hp [] (e ▸ Piece.empty)
    rcases piece_spec p h0 with ⟨r, _, h2, _⟩ | ⟨h1, _⟩
    · exact absurd h2 (hp _)
    · have ht := turn_piece h0 h0 (show (splitOnce p).getD (p, []) = (p, []) by rw [splitOnce_none hc]; rfl)
      rw [h1] at ht
      exact .fail _ (by rw [next_eq, ht])
  | bad p rest hc hp =>
    have h0 : p ≠ [] := fun e => hp [] (e ▸ Piece.empty)
    have hs : (splitOnce (p ++ ',' :: rest)).getD (p ++ ',' :: rest, []) = (p, rest) := by rw [splitOnce_cut rest hc]; rfl
    rcases piece_spec p h0 with ⟨r, _, h2, _⟩ | ⟨h1, _⟩
    · exact absurd h2 (hp _)
    · have ht := turn_piece h0 (by simp) hs
      rw [h1] at ht
      exact .fail _ (by rw [next_eq, ht])

theorem Yields.det {s : St} {l l' : List Nat} {b b' : Bool} (h : Yields s l b) (h' : Yields s l' b') : l = l' ∧ b = b' := by
  induction h generalizing l' b' with
  | stop s s' h =>
    cases h' with
    | stop => exact ⟨rfl, rfl⟩
    | fail _ h2 => rw [h] at h2; cases h2
    | item _ s'' n l b h2 => rw [h] at h2; cases h2
  | fail s h =>
    cases h' with
    | stop _ _ h2 => rw [h] at h2; cases h2
    | fail => exact ⟨rfl, rfl⟩
    | item _ s'' n l b h2 => rw [h] at h2; cases h2
  | item s s1 n l b h hy ih =>
    cases h' with
    | stop _ _ h2 => rw [h] at h2; cases h2
    | fail _ h2 => rw [h] at h2; cases h2
    | item _ s2 n' l' b' h2 hy' =>
      rw [h] at h2; cases h2
      obtain ⟨rfl, rfl⟩ := ih hy'
      exact ⟨rfl, rfl⟩

theorem ranges_total : ∀ (k : Nat) (text : List Char), text.length ≤ k → ∃ l b, Ranges text l b := by
  intro k
  induction k with
  | zero => intro text h; rw [List.length_eq_zero_iff.mp (Nat.le_zero.mp h)]; exact ⟨[], false, .last [] [] (by simp) .empty⟩
  | succ k ih =>
    intro text h
    cases hs : splitOnce text with
    | none =>
      have hc : ',' ∉ text := fun hm => by
        obtain ⟨a, b, e, hn⟩ := first_comma hm
        rw [e, splitOnce_cut _ hn] at hs; cases hs
      by_cases hp : ∃ l, Piece text l
      · obtain ⟨l, hp⟩ := hp; exact ⟨l, false, .last _ _ hc hp⟩
      · exact ⟨[], true, .badLast _ hc fun l hl => hp ⟨l, hl⟩⟩
    | some x =>
      obtain ⟨p, rest⟩ := x
      obtain ⟨rfl, hc⟩ := splitOnce_some hs
      by_cases hp : ∃ l, Piece p l
      · obtain ⟨l, hp⟩ := hp
        obtain ⟨l', b, hr⟩ := ih rest (by simp at h; omega)
        exact ⟨_, b, .more _ _ _ _ _ hc hp hr⟩
      · exact ⟨[], true, .bad _ _ hc fun l hl => hp ⟨l, hl⟩⟩

/-! ## Theorems -/

/-- The iterator gives exactly the numbers of the text, in order, and fails exactly where the text is malformed; and for every text it comes to an end. -/
theorem C86_list (text : List Char) : (∀ l b, Yields (start text) l b ↔ Ranges text l b) ∧ ∃ l b, Ranges text l b := by
  obtain ⟨l0, b0, h0⟩ := ranges_total _ text (Nat.le_refl _)
  refine ⟨fun l b => ⟨fun h => ?_, yields_of⟩, l0, b0, h0⟩
  obtain ⟨rfl, rfl⟩ := h.det (yields_of h0)
  exact h0

/-- The loop of `next` always ends. -/
theorem C86_next (s : St) : ∃ r, next s = some r := by
  have : ∀ n s, size s ≤ n → ∃ r, next s = some r := by
    intro n
    induction n with
    | zero => intro s h; simp [size] at h
    | succ n ih =>
      intro s h
      rw [next_eq]
      cases ht : turn s with
      | done r => exact ⟨r, rfl⟩
      | again s' => have := turn_size ht; exact ih s' (by omega)
  exact this _ s (Nat.le_refl _)

/-- The number of workers is the number of different core identifiers of the processors that are online and allowed; it fails if there is none, or a number is not below 1024. -/
theorem C86_count (allowed : Nat → Bool) (core : Nat → Nat) (online : List Nat) :
    (∀ k, countCores allowed core online = .ok k ↔
      (∀ c ∈ online, c < 1024) ∧ 0 < k ∧ ∃ ids : List Nat, ids.Nodup ∧ ids.length = k ∧ ∀ i, i ∈ ids ↔ ∃ c ∈ online, allowed c = true ∧ core c = i) := by
  have key : ∀ (on ids : List Nat), ids.Nodup →
      ((∀ c ∈ on, c < 1024) → ∃ r, coreIds allowed core ids on = .ok r ∧ r.Nodup ∧ ∀ i, i ∈ r ↔ i ∈ ids ∨ ∃ c ∈ on, allowed c = true ∧ core c = i) ∧
      ((∃ c ∈ on, ¬ c < 1024) → coreIds allowed core ids on = .panic) := by
    intro on
    induction on with
    | nil => intro ids hn; exact ⟨fun _ => ⟨ids, rfl, hn, by simp⟩, by simp⟩
    | cons c on ih =>
      intro ids hn
      simp only [coreIds]
      by_cases hc : c < 1024
      · rw [decide_eq_true hc, R.assert_true, R.bind_ok]
        have hn' : (if allowed c then (if core c ∈ ids then ids else core c :: ids) else ids).Nodup := by
          split
          · split
            · exact hn
            · rename_i h; exact List.nodup_cons.mpr ⟨h, hn⟩
          · exact hn
        obtain ⟨i1, i2⟩ := ih _ hn'
        refine ⟨fun h => ?_, fun h => i2 ?_⟩
        · obtain ⟨r, e, h1, h2⟩ := i1 fun c hc => h c (by simp [hc])
          refine ⟨r, e, h1, fun i => ?_⟩
          rw [h2 i]
          simp only [List.mem_cons, exists_eq_or_imp]
          by_cases ha : allowed c = true
          · rw [if_pos ha]
            by_cases hm : core c ∈ ids
            · rw [if_pos hm]; grind
            · rw [if_neg hm, List.mem_cons]; grind
          · rw [if_neg ha]; grind
        · obtain ⟨x, hx, hx'⟩ := h
          rcases List.mem_cons.mp hx with rfl | hx
          · exact absurd hc hx'
          · exact ⟨x, hx, hx'⟩
      · rw [decide_eq_false hc, R.assert_false, R.bind_panic]
        exact ⟨fun h => absurd (h c (by simp)) hc, fun _ => rfl⟩
  intro k
  obtain ⟨k1, k2⟩ := key online [] List.nodup_nil
  by_cases hall : ∀ c ∈ online, c < 1024
  · obtain ⟨r, e, h1, h2⟩ := k1 hall
    simp only [countCores, e, R.bind_ok]
    have hperm : ∀ ids : List Nat, ids.Nodup → (∀ i, i ∈ ids ↔ ∃ c ∈ online, allowed c = true ∧ core c = i) → ids.length = r.length := by
      intro ids hn hm
      have hp : ids.Perm r := (List.perm_ext_iff_of_nodup hn h1).mpr fun i => by rw [hm i, h2 i]; simp
      exact hp.length_eq
    cases hr : r with
    | nil =>
      simp only [List.isEmpty_nil, Bool.not_true, R.assert_false, R.bind_panic, reduceCtorEq, false_iff]
      rintro ⟨_, h0, ids, hn, hl, hm⟩
      have := hperm ids hn hm
      rw [hr] at this; simp at this; simp [this] at hl; omega
    | cons a t =>
      simp only [List.isEmpty_cons, Bool.not_false, R.assert_true, R.bind_ok, R.ok.injEq]
      constructor
      · intro h
        refine ⟨hall, by rw [← h]; simp, r, h1, by rw [hr, ← h], fun i => by rw [h2 i]; simp⟩
      · rintro ⟨_, h0, ids, hn, hl, hm⟩
        rw [← hl, hperm ids hn hm, hr]
  · have hex : ∃ c ∈ online, ¬ c < 1024 := Classical.byContradiction fun h => hall fun c hc => Classical.byContradiction fun h' => h ⟨c, hc, h'⟩
    simp only [countCores, k2 hex, R.bind_panic, reduceCtorEq, false_iff]
    exact fun h => hall h.1

end Shadow.RangeList
