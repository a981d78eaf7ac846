import Verif.PrioQ.Model

/-!
# C76: the priority queue of the C code gives its elements out in order
-/

namespace Shadow.PrioQ
open Shadow.Base

/-! ## Heaps of numbers -/

/-- Two values change places. -/
def sw (K : Nat → Nat) (i j : Nat) : Nat → Nat := upd (upd K i (K j)) j (K i)

/-- No element is smaller than its parent. -/
def Ord (K : Nat → Nat) (n : Nat) : Prop := ∀ k, 0 < k → k < n → K ((k - 1) / 2) ≤ K k

/-- Only the element at `i` may be smaller than its parent. -/
structure UpOrd (K : Nat → Nat) (n i : Nat) : Prop where
  a : ∀ k, 0 < k → k < n → k ≠ i → K ((k - 1) / 2) ≤ K k
  b : ∀ c, 0 < c → c < n → (c - 1) / 2 = i → 0 < i → K ((i - 1) / 2) ≤ K c

/-- Only the children of `i` may be smaller than their parent. -/
structure DownOrd (K : Nat → Nat) (n i : Nat) : Prop where
  a : ∀ k, 0 < k → k < n → (k - 1) / 2 ≠ i → K ((k - 1) / 2) ≤ K k
  b : ∀ c, 0 < c → c < n → (c - 1) / 2 = i → 0 < i → K ((i - 1) / 2) ≤ K c

theorem up_swap {K : Nat → Nat} {n i : Nat} (h : UpOrd K n i) (hi : 0 < i) (hn : i < n) (hlt : K i < K ((i - 1) / 2)) :
    UpOrd (sw K i ((i - 1) / 2)) n ((i - 1) / 2) := by
  obtain ⟨a, b⟩ := h
  generalize hp : (i - 1) / 2 = p at *
  have hpi : p < i := by omega
  constructor
  · intro k k0 kn kp
    have ak := a k k0 kn
    have bk := b k k0 kn
    unfold sw upd
    generalize hq : (k - 1) / 2 = q at *
    grind
  · intro c c0 cn cp p0
    have ap := a p p0 (by omega) (by omega)
    have ac := a c c0 cn
    rw [cp] at ac
    unfold sw upd
    generalize hq : (p - 1) / 2 = q at *
    have : q < p := by omega
    grind

theorem down_swap {K : Nat → Nat} {n i c : Nat} (h : DownOrd K n i) (c0 : 0 < c) (hc : (c - 1) / 2 = i) (hn : c < n)
    (hlt : K c < K i) (hmin : ∀ s, 0 < s → s < n → (s - 1) / 2 = i → K c ≤ K s) : DownOrd (sw K i c) n c := by
  obtain ⟨a, b⟩ := h
  have hic : i < c := by omega
  constructor
  · intro k k0 kn kp
    have ak := a k k0 kn
    have bc := b c c0 hn hc
    have mk := hmin k k0 kn
    unfold sw upd
    generalize hq : (k - 1) / 2 = q at *
    have e1 : k = i → q = (i - 1) / 2 := by intro e; rw [← hq, e]
    have e2 : k = c → q = i := by intro e; rw [← hq, e, hc]
    have e3 : q < k := by omega
    by_cases hki : k = i
    · have := e1 hki
      have : q ≠ i := by omega
      have : q ≠ c := by omega
      grind
    · by_cases hkc : k = c
      · have := e2 hkc
        grind
      · grind
  · intro d d0 dn dp _
    have ad := a d d0 dn (by omega)
    rw [dp] at ad
    have : d ≠ i := by omega
    have : d ≠ c := by omega
    rw [hc]
    unfold sw upd
    grind

/-- In a heap the first element is the smallest. -/
theorem Ord.first {K : Nat → Nat} {n : Nat} (h : Ord K n) : ∀ i, i < n → K 0 ≤ K i := by
  intro i
  induction i using Nat.strongRecOn with
  | _ i ih =>
    intro hi
    by_cases h0 : i = 0
    · subst h0; exact Nat.le_refl _
    · exact Nat.le_trans (ih ((i - 1) / 2) (by omega) (by omega)) (h i (by omega) hi)

theorem Ord.up {K : Nat → Nat} {n : Nat} (h : Ord K n) (i : Nat) : UpOrd K n i := by
  refine ⟨fun k k0 kn _ => h k k0 kn, fun c c0 cn cp i0 => ?_⟩
  have := h c c0 cn
  rw [cp] at this
  exact Nat.le_trans (h i i0 (by omega)) this

theorem Ord.down {K : Nat → Nat} {n : Nat} (h : Ord K n) (i : Nat) : DownOrd K n i :=
  ⟨fun k k0 kn _ => h k k0 kn, (h.up i).b⟩

/-! ## The queue -/

/-- The places are distinct, and the map knows them. -/
structure Good (q : Q) : Prop where
  inj : ∀ i j, i < q.size → j < q.size → q.heap i = q.heap j → i = j
  map : ∀ p b i, q.map p = some (b, i) ↔ b = q.base ∧ i < q.size ∧ q.heap i = p

/-- Whether an element is in the queue. -/
def Has (q : Q) (p : Nat) : Prop := ∃ i, i < q.size ∧ q.heap i = p

/-- Two queues that hold the same. -/
structure Same (q r : Q) : Prop where
  size : r.size = q.size
  base : r.base = q.base
  hs : r.heapSize = q.heapSize
  has : ∀ p, Has r p ↔ Has q p
  good : Good r

theorem Same.refl {q : Q} (h : Good q) : Same q q := ⟨rfl, rfl, rfl, fun _ => Iff.rfl, h⟩

theorem Same.trans {a b c : Q} (h : Same a b) (k : Same b c) : Same a c :=
  ⟨k.size.trans h.size, k.base.trans h.base, k.hs.trans h.hs, fun p => (k.has p).trans (h.has p), k.good⟩

theorem swap_heap (q : Q) (i j k : Nat) :
    (swap q i j).heap k = if k = j then q.heap i else if k = i then q.heap j else q.heap k := rfl

theorem swap_same {q : Q} (h : Good q) {i j : Nat} (hi : i < q.size) (hj : j < q.size) : Same q (swap q i j) := by
  have hinj := h.inj
  have hmap := h.map
  refine ⟨rfl, rfl, rfl, fun p => ⟨?_, ?_⟩, ?_, ?_⟩
  · rintro ⟨k, hk, e⟩
    rw [swap_heap] at e
    split at e
    · exact ⟨i, hi, e⟩
    · split at e
      · exact ⟨j, hj, e⟩
      · exact ⟨k, hk, e⟩
  · rintro ⟨k, hk, e⟩
    by_cases k1 : k = i
    · exact ⟨j, hj, by rw [swap_heap, if_pos rfl, ← k1]; exact e⟩
    · by_cases k2 : k = j
      · refine ⟨i, hi, ?_⟩
        rw [swap_heap]
        split
        · rename_i hij; rw [hij, ← k2]; exact e
        · rw [if_pos rfl, ← k2]; exact e
      · exact ⟨k, hk, by rw [swap_heap, if_neg k2, if_neg k1]; exact e⟩
  · intro a b ha hb e
    rw [swap_heap, swap_heap] at e
    have := hinj a b ha hb
    have := hinj i j hi hj
    have := hinj a i ha hi
    have := hinj a j ha hj
    have := hinj i b hi hb
    have := hinj j b hj hb
    grind
  · intro p b k
    show upd (upd q.map (q.heap i) (some (q.base, j))) (q.heap j) (some (q.base, i)) p = _ ↔ b = q.base ∧ k < q.size ∧ _
    rw [swap_heap]
    unfold upd
    have m := hmap p b k
    have i1 : ∀ k, k < q.size → q.heap k = q.heap i → k = i := fun k hk => hinj k i hk hi
    have i2 : ∀ k, k < q.size → q.heap k = q.heap j → k = j := fun k hk => hinj k j hk hj
    grind

theorem swap_key (key : Nat → Nat) (q : Q) (i j : Nat) : (fun k => key ((swap q i j).heap k)) = sw (fun k => key (q.heap k)) i j := by
  funext k
  simp only [swap_heap, sw, upd]
  split <;> first | rfl | (split <;> rfl)

theorem up_spec (key : Nat → Nat) (f : Nat) (q : Q) (i : Nat) (h : Good q) (hi : i < q.size) (hf : i < f)
    (ho : UpOrd (fun k => key (q.heap k)) q.size i) :
    Same q (up key f q i).1 ∧ Ord (fun k => key ((up key f q i).1.heap k)) q.size ∧ (up key f q i).2 ≤ i := by
  induction f generalizing q i with
  | zero => omega
  | succ f ih =>
    unfold up
    by_cases hc : i > 0 ∧ smaller key q i ((i - 1) / 2) = true
    · rw [if_pos hc]
      have hlt : key (q.heap i) < key (q.heap ((i - 1) / 2)) := by simpa [smaller] using hc.2
      have s := swap_same h hi (j := (i - 1) / 2) (by omega)
      have o := up_swap ho hc.1 hi hlt
      rw [← swap_key] at o
      obtain ⟨a, b, c⟩ := ih (swap q i ((i - 1) / 2)) ((i - 1) / 2) s.good (by rw [s.size]; omega) (by omega)
        (by rw [s.size]; exact o)
      rw [s.size] at b
      exact ⟨s.trans a, b, by omega⟩
    · rw [if_neg hc]
      refine ⟨Same.refl h, fun k k0 kn => ?_, Nat.le_refl _⟩
      by_cases hk : k = i
      · subst hk
        simp only [smaller, decide_eq_true_eq] at hc
        simp only
        omega
      · exact ho.a k k0 kn hk

theorem child_spec (key : Nat → Nat) (q : Q) (i : Nat) (h : 2 * i + 1 < q.size) :
    0 < child key q i ∧ (child key q i - 1) / 2 = i ∧ child key q i < q.size ∧
    ∀ s, 0 < s → s < q.size → (s - 1) / 2 = i → key (q.heap (child key q i)) ≤ key (q.heap s) := by
  have hs : ∀ s, 0 < s → (s - 1) / 2 = i → s = 2 * i + 1 ∨ s = 2 * i + 1 + 1 := by intro s _ _; omega
  unfold child
  split
  · rename_i hc
    have hlt : key (q.heap (2 * i + 1 + 1)) < key (q.heap (2 * i + 1)) := by simpa [smaller] using hc.2
    refine ⟨by omega, by omega, by omega, fun s s0 sn sp => ?_⟩
    rcases hs s s0 sp with rfl | rfl
    · omega
    · exact Nat.le_refl _
  · rename_i hc
    simp only [smaller, decide_eq_true_eq] at hc
    refine ⟨by omega, by omega, by omega, fun s s0 sn sp => ?_⟩
    rcases hs s s0 sp with rfl | rfl
    · exact Nat.le_refl _
    · omega

theorem down_spec (key : Nat → Nat) (f : Nat) (q : Q) (i : Nat) (h : Good q) (hf : q.size ≤ i + f)
    (ho : DownOrd (fun k => key (q.heap k)) q.size i) :
    Same q (down key f q i).1 ∧ Ord (fun k => key ((down key f q i).1.heap k)) q.size ∧
    (i < q.size → (down key f q i).2 < q.size) := by
  induction f generalizing q i with
  | zero =>
    unfold down
    exact ⟨Same.refl h, fun k k0 kn => ho.a k k0 kn (by omega), fun h => h⟩
  | succ f ih =>
    unfold down
    by_cases h1 : 2 * i + 1 < q.size
    · rw [if_pos h1]
      obtain ⟨c0, cp, cn, cm⟩ := child_spec key q i h1
      generalize hch : child key q i = c at *
      by_cases h2 : smaller key q c i = true
      · rw [if_pos h2]
        have hlt : key (q.heap c) < key (q.heap i) := by simpa [smaller] using h2
        have s := swap_same h (i := i) (j := c) (by omega) cn
        have o := down_swap ho c0 cp cn hlt cm
        rw [← swap_key] at o
        obtain ⟨a, b, d⟩ := ih (swap q i c) c s.good (by rw [s.size]; omega) (by rw [s.size]; exact o)
        rw [s.size] at b d
        exact ⟨s.trans a, b, fun _ => d cn⟩
      · rw [if_neg h2]
        refine ⟨Same.refl h, fun k k0 kn => ?_, fun h => h⟩
        by_cases hk : (k - 1) / 2 = i
        · have := cm k k0 kn hk
          simp only [smaller, decide_eq_true_eq] at h2
          simp only [hk]
          omega
        · exact ho.a k k0 kn hk
    · rw [if_neg h1]
      exact ⟨Same.refl h, fun k k0 kn => ho.a k k0 kn (by omega), fun h => h⟩

/-- The invariant of a queue. -/
structure Inv (key : Nat → Nat) (q : Q) : Prop where
  good : Good q
  ord : Ord (fun k => key (q.heap k)) q.size
  fits : q.size ≤ q.heapSize
  pow : ∃ k, q.heapSize = 100 * 2 ^ k

theorem inv_new (key : Nat → Nat) (base : Nat) (junk : Nat → Nat) : Inv key (new base junk) := by
  refine ⟨⟨?_, ?_⟩, ?_, ?_, ⟨0, rfl⟩⟩ <;> simp [new, Ord]

theorem refresh_good {q : Q} (h : ∀ i j, i < q.size → j < q.size → q.heap i = q.heap j → i = j) : Good (refresh q) := by
  refine ⟨h, ?_⟩
  have gen : ∀ n, n ≤ q.size → ∀ p b i,
      (List.range n).foldl (fun m i => upd m (q.heap i) (some (q.base, i))) (fun _ => none) p = some (b, i) ↔
      b = q.base ∧ i < n ∧ q.heap i = p := by
    intro n
    induction n with
    | zero => intro _ p b i; simp
    | succ n ih =>
      intro hn p b i
      rw [List.range_succ, List.foldl_append]
      simp only [List.foldl_cons, List.foldl_nil]
      have := ih (by omega) p b i
      have inj := h i n
      generalize List.foldl (fun m i => upd m (q.heap i) (some (q.base, i))) (fun _ => none) (List.range n) = F at *
      show (if p = q.heap n then some (q.base, n) else F p) = some (b, i) ↔ _
      split
      · grind
      · rw [this]; grind
  exact gen q.size (Nat.le_refl _)

theorem renew_inv {key : Nat → Nat} {q : Q} (h : Inv key q) {n : Nat} (nb : Nat) (hn : q.size ≤ n) (hp : ∃ k, n = 100 * 2 ^ k) :
    Inv key (renew q n nb) ∧ (renew q n nb).size = q.size ∧ (renew q n nb).heap = q.heap ∧ (renew q n nb).heapSize = n := by
  unfold renew
  simp only
  by_cases hb : nb ≠ q.base
  · rw [if_pos hb]
    exact ⟨⟨refresh_good h.good.inj, h.ord, hn, hp⟩, rfl, rfl, rfl⟩
  · rw [if_neg hb]
    have e : nb = q.base := by simpa using hb
    subst e
    exact ⟨⟨⟨h.good.inj, h.good.map⟩, h.ord, hn, hp⟩, rfl, rfl, rfl⟩

theorem map_has {q : Q} (h : Good q) (p : Nat) : (q.map p).isSome ↔ Has q p := by
  constructor
  · intro hs
    cases hm : q.map p with
    | none => rw [hm] at hs; simp at hs
    | some x =>
      obtain ⟨b, i⟩ := x
      have := (h.map p b i).mp hm
      exact ⟨i, this.2⟩
  · rintro ⟨i, hi, e⟩
    rw [(h.map p q.base i).mpr ⟨rfl, hi, e⟩]
    rfl

theorem push_spec {key : Nat → Nat} {q : Q} (h : Inv key q) (p nb : Nat) :
    ∃ r b, push key q p nb = .ok (r, b) ∧ Inv key r ∧ (b = true ↔ ¬ Has q p) ∧
      (∀ x, Has r x ↔ Has q x ∨ x = p) ∧ r.size = q.size + (if b then 1 else 0) := by
  obtain ⟨k0, hk0⟩ := h.pow
  generalize hq' : (if q.size ≥ q.heapSize then renew q (q.heapSize * 2) nb else q) = q'
  have key1 : Inv key q' ∧ q'.size = q.size ∧ q'.heap = q.heap ∧ q'.size < q'.heapSize := by
    rw [← hq']
    have hpos : 0 < q.heapSize := by rw [hk0]; exact Nat.mul_pos (by decide) (Nat.pow_pos (by decide))
    by_cases hge : q.size ≥ q.heapSize
    · rw [if_pos hge]
      have := renew_inv h (n := q.heapSize * 2) nb (by have := h.fits; omega) ⟨k0 + 1, by rw [hk0, Nat.pow_succ, Nat.mul_assoc]⟩
      exact ⟨this.1, this.2.1, this.2.2.1, by rw [this.2.1, this.2.2.2]; have := h.fits; omega⟩
    · rw [if_neg hge]
      exact ⟨h, rfl, rfl, by omega⟩
  obtain ⟨i1, e1, e2, e3⟩ := key1
  have hhas : ∀ x, Has q' x ↔ Has q x := by intro x; unfold Has; rw [e1, e2]
  unfold push
  simp only [hq']
  cases hm : q'.map p with
  | some x =>
    obtain ⟨b, i⟩ := x
    have m := (i1.good.map p b i).mp hm
    simp only
    rw [m.1, beq_self_eq_true, R.assert_true, R.bind_ok]
    obtain ⟨s1, o1, l1⟩ := down_spec key q'.size q' i i1.good (by omega) (i1.ord.down i)
    generalize down key q'.size q' i = d at *
    have l1' := l1 m.2.1
    obtain ⟨s2, o2, _⟩ := up_spec key (d.2 + 1) d.1 d.2 s1.good (by rw [s1.size]; exact l1') (by omega) (by rw [s1.size]; exact o1.up _)
    generalize up key (d.2 + 1) d.1 d.2 = u at *
    have s := s1.trans s2
    have hp : Has q p := (hhas p).mp ⟨i, m.2⟩
    refine ⟨u.1, false, rfl, ⟨s.good, ?_, ?_, ?_⟩, by simp [hp], fun y => ?_, ?_⟩
    · rw [s.size, ← s1.size]; exact o2
    · rw [s.size, s.hs]; exact i1.fits
    · rw [s.hs]; exact i1.pow
    · rw [s.has, hhas]
      exact ⟨Or.inl, fun c => c.elim id (fun e => e ▸ hp)⟩
    · rw [s.size, e1]; simp
  | none =>
    simp only
    have hnp : ¬ Has q' p := fun c => by
      have := (map_has i1.good p).mpr c
      rw [hm] at this
      simp at this
    rw [decide_eq_true e3, R.assert_true, R.bind_ok]
    generalize hr : ({ q' with heap := upd q'.heap q'.size p, map := upd q'.map p (some (q'.base, q'.size)), size := q'.size + 1 } : Q) = r
    have rheap : ∀ k, r.heap k = if k = q'.size then p else q'.heap k := by intro k; rw [← hr]; rfl
    have rmap : ∀ x, r.map x = if x = p then some (q'.base, q'.size) else q'.map x := by intro x; rw [← hr]; rfl
    have rsize : r.size = q'.size + 1 := by rw [← hr]
    have rbase : r.base = q'.base := by rw [← hr]
    have rhs : r.heapSize = q'.heapSize := by rw [← hr]
    have hne : ∀ k, k < q'.size → q'.heap k ≠ p := fun k hk e => hnp ⟨k, hk, e⟩
    have g : Good r := by
      constructor
      · intro a b ha hb e
        rw [rheap, rheap] at e
        rw [rsize] at ha hb
        have := i1.good.inj a b
        have := hne a
        have := hne b
        grind
      · intro x b k
        rw [rmap, rheap, rsize, rbase]
        have m := i1.good.map x b k
        have := hne k
        grind
    have rhas : ∀ x, Has r x ↔ Has q' x ∨ x = p := by
      intro x
      constructor
      · rintro ⟨k, hk, e⟩
        rw [rheap] at e
        split at e
        · exact Or.inr e.symm
        · exact Or.inl ⟨k, by omega, e⟩
      · rintro (⟨k, hk, e⟩ | e)
        · exact ⟨k, by omega, by rw [rheap, if_neg (by omega)]; exact e⟩
        · exact ⟨q'.size, by omega, by rw [rheap, if_pos rfl]; exact e.symm⟩
    have ro : UpOrd (fun k => key (r.heap k)) r.size q'.size := by
      constructor
      · intro k k0 kn kne
        rw [rheap, rheap, if_neg (by omega), if_neg kne]
        exact i1.ord k k0 (by omega)
      · intro c c0 cn cp _
        omega
    obtain ⟨s, o, _⟩ := up_spec key (q'.size + 1) r q'.size g (by omega) (by omega) ro
    generalize up key (q'.size + 1) r q'.size = u at *
    refine ⟨u.1, true, rfl, ⟨s.good, by rw [s.size]; exact o, ?_, by rw [s.hs, rhs]; exact i1.pow⟩, ?_, fun x => ?_, ?_⟩
    · rw [s.size, s.hs, rsize, rhs]; omega
    · simp only [true_iff]
      rw [← hhas]; exact hnp
    · rw [s.has, rhas, hhas]
    · rw [s.size, rsize, e1]; simp

theorem pop_spec {key : Nat → Nat} {q : Q} (h : Inv key q) (nb : Nat) :
    Inv key (pop key q nb).1 ∧
    (q.size = 0 → (pop key q nb) = (q, none)) ∧
    (0 < q.size → ∃ p, (pop key q nb).2 = some p ∧ Has q p ∧ (∀ x, Has q x → key p ≤ key x) ∧
      (∀ x, Has (pop key q nb).1 x ↔ Has q x ∧ x ≠ p) ∧ (pop key q nb).1.size = q.size - 1) := by
  by_cases h0 : q.size > 0
  · have hs := swap_same h.good h0 (j := q.size - 1) (by omega)
    generalize hq1 : swap q 0 (q.size - 1) = q1 at *
    have q1h : ∀ k, q1.heap k = if k = q.size - 1 then q.heap 0 else if k = 0 then q.heap (q.size - 1) else q.heap k := by
      intro k; rw [← hq1]; rfl
    generalize hr : ({ q1 with map := upd q1.map (q.heap 0) none, size := q1.size - 1 } : Q) = r
    have rheap : r.heap = q1.heap := by rw [← hr]
    have rsize : r.size = q.size - 1 := by rw [← hr]; show q1.size - 1 = _; rw [hs.size]
    have rmap : ∀ x, r.map x = if x = q.heap 0 then none else q1.map x := by intro x; rw [← hr]; rfl
    have rbase : r.base = q1.base := by rw [← hr]
    have rhs : r.heapSize = q.heapSize := by rw [← hr]; exact hs.hs
    have hlast : q1.heap (q.size - 1) = q.heap 0 := by rw [q1h, if_pos rfl]
    have g : Good r := by
      constructor
      · intro a b ha hb e
        rw [rheap] at e
        exact hs.good.inj a b (by rw [hs.size]; omega) (by rw [hs.size]; omega) e
      · intro x b k
        rw [rmap, rheap, rsize, rbase]
        have m := hs.good.map x b k
        rw [hs.size] at m
        have inj := hs.good.inj k (q.size - 1)
        rw [hs.size, hlast] at inj
        by_cases hx : x = q.heap 0
        · rw [if_pos hx]
          constructor
          · intro c; exact absurd c (by simp)
          · rintro ⟨_, c2, c3⟩
            have := inj (by omega) (by omega) (by rw [c3, hx])
            omega
        · rw [if_neg hx, m]
          constructor
          · rintro ⟨c1, c2, c3⟩
            refine ⟨c1, ?_, c3⟩
            by_cases hk : k = q.size - 1
            · exfalso; apply hx; rw [← c3, hk, hlast]
            · omega
          · rintro ⟨c1, c2, c3⟩; exact ⟨c1, by omega, c3⟩
    have rhas : ∀ x, Has r x ↔ Has q x ∧ x ≠ q.heap 0 := by
      intro x
      rw [← hs.has x]
      unfold Has
      rw [rheap, rsize, hs.size]
      constructor
      · rintro ⟨k, hk, e⟩
        refine ⟨⟨k, by omega, e⟩, fun c => ?_⟩
        have := hs.good.inj k (q.size - 1) (by rw [hs.size]; omega) (by rw [hs.size]; omega) (by rw [e, c, hlast])
        omega
      · rintro ⟨⟨k, hk, e⟩, c⟩
        refine ⟨k, ?_, e⟩
        by_cases hkk : k = q.size - 1
        · exfalso; apply c; rw [← e, hkk, hlast]
        · omega
    have ro : DownOrd (fun k => key (r.heap k)) r.size 0 := by
      constructor
      · intro k k0 kn kne
        rw [rheap, q1h, q1h, if_neg (by omega), if_neg kne, if_neg (by omega), if_neg (by omega)]
        exact h.ord k k0 (by omega)
      · intro c _ _ _ z; omega
    obtain ⟨s, o, _⟩ := down_spec key r.size r 0 g (by omega) ro
    have hpop : pop key q nb = if (down key r.size r 0).1.heapSize > initialSize ∧ (down key r.size r 0).1.size * 4 < (down key r.size r 0).1.heapSize
        then (renew (down key r.size r 0).1 ((down key r.size r 0).1.heapSize / 2) nb, some (q.heap 0))
        else ((down key r.size r 0).1, some (q.heap 0)) := by
      unfold pop
      rw [if_pos h0]
      have rs : r.size = q1.size - 1 := by rw [← hr]
      simp only [hq1]
      rw [hr, rs]
    rw [hpop]
    generalize (down key r.size r 0).1 = d at *
    have di : Inv key d := ⟨s.good, by rw [s.size]; exact o, by rw [s.size, s.hs, rsize, rhs]; have := h.fits; omega, by rw [s.hs, rhs]; exact h.pow⟩
    have fin : ∀ w : Q, Inv key w → w.size = d.size → w.heap = d.heap →
        Inv key w ∧ (q.size = 0 → (w, some (q.heap 0)) = (q, none)) ∧
        (0 < q.size → ∃ p, some (q.heap 0) = some p ∧ Has q p ∧ (∀ x, Has q x → key p ≤ key x) ∧
          (∀ x, Has w x ↔ Has q x ∧ x ≠ p) ∧ w.size = q.size - 1) := by
      intro w hw w1 w2
      refine ⟨hw, fun c => by omega, fun _ => ⟨q.heap 0, rfl, ⟨0, h0, rfl⟩, ?_, fun x => ?_, ?_⟩⟩
      · rintro x ⟨k, hk, e⟩
        rw [← e]
        exact h.ord.first k hk
      · have : Has w x ↔ Has d x := by unfold Has; rw [w1, w2]
        rw [this, s.has, rhas]
      · rw [w1, s.size, rsize]
    by_cases hc : d.heapSize > initialSize ∧ d.size * 4 < d.heapSize
    · rw [if_pos hc]
      have hp : ∃ k, d.heapSize / 2 = 100 * 2 ^ k := by
        obtain ⟨k, hk⟩ := di.pow
        cases k with
        | zero => rw [hk] at hc; simp [initialSize] at hc
        | succ k => exact ⟨k, by rw [hk, Nat.pow_succ]; omega⟩
      have w := renew_inv di (n := d.heapSize / 2) nb (by omega) hp
      exact fin _ w.1 w.2.1 w.2.2.1
    · rw [if_neg hc]
      exact fin d di rfl rfl
  · have e : pop key q nb = (q, none) := by unfold pop; rw [if_neg h0]
    rw [e]
    exact ⟨h, fun _ => rfl, fun c => absurd c h0⟩

/-! ## C76 -/

/-- Queues that come from a new one. -/
inductive Run (key : Nat → Nat) : Q → Prop
  | new (base junk) : Run key (new base junk)
  | step {q op r} : Run key q → step key q op = .ok r → Run key r.1

theorem Run.inv {key : Nat → Nat} {q : Q} (h : Run key q) : Inv key q := by
  induction h with
  | new b j => exact inv_new key b j
  | @step q op r _ hs ih =>
    cases op with
    | push p nb =>
      obtain ⟨r', b, e, i, _⟩ := push_spec ih p nb
      simp only [Shadow.PrioQ.step, e, R.bind_ok, R.ok.injEq] at hs
      rw [← hs]; exact i
    | pop nb =>
      simp only [Shadow.PrioQ.step, R.ok.injEq] at hs
      rw [← hs]; exact (pop_spec ih nb).1

/-- C76: no operation uses an address that has become invalid or is outside of the array. -/
theorem C76_safe {key : Nat → Nat} {q : Q} (h : Run key q) :
    (∀ op, ∃ r, step key q op = .ok r) ∧ (∀ p, ∃ x, find q p = .ok x) ∧ q.size ≤ q.heapSize := by
  have i := h.inv
  refine ⟨fun op => ?_, fun p => ?_, i.fits⟩
  · cases op with
    | push p nb =>
      obtain ⟨r, b, e, _⟩ := push_spec i p nb
      exact ⟨(r, b, none), by simp only [step, e, R.bind_ok]⟩
    | pop nb => exact ⟨_, rfl⟩
  · unfold find
    cases hm : q.map p with
    | none => exact ⟨_, rfl⟩
    | some x =>
      obtain ⟨b, k⟩ := x
      have m := (i.good.map p b k).mp hm
      have : (b == q.base && decide (k < q.heapSize)) = true := by
        rw [m.1]
        simp only [beq_self_eq_true, Bool.true_and, decide_eq_true_eq]
        have := i.fits
        omega
      simp only
      rw [this, R.assert_true, R.bind_ok]
      exact ⟨_, rfl⟩

/-- C76: a queue holds exactly what was put in and not taken out, each element once; it is found exactly then.
`l` is the history: what was put in and not taken out. -/
inductive Hist (key : Nat → Nat) : Q → List Nat → Prop
  | new (base junk) : Hist key (new base junk) []
  | push {q l p nb r} : Hist key q l → step key q (.push p nb) = .ok r → Hist key r.1 (if p ∈ l then l else p :: l)
  | pop {q l nb r} : Hist key q l → step key q (.pop nb) = .ok r → Hist key r.1 (match r.2.2 with
      | none => l
      | some p => l.erase p)

theorem Hist.run {key : Nat → Nat} {q : Q} {l : List Nat} (h : Hist key q l) : Run key q := by
  induction h with
  | new b j => exact .new b j
  | push _ hs ih => exact .step ih hs
  | pop _ hs ih => exact .step ih hs

theorem Hist.spec {key : Nat → Nat} {q : Q} {l : List Nat} (h : Hist key q l) :
    l.Nodup ∧ l.length = q.size ∧ ∀ p, Has q p ↔ p ∈ l := by
  induction h with
  | new b j => refine ⟨List.nodup_nil, rfl, fun p => ?_⟩; simp [Has, Shadow.PrioQ.new]
  | @push q l p nb r hh hs ih =>
    obtain ⟨n, len, mem⟩ := ih
    obtain ⟨r', b, e, i, hb, hx, hsz⟩ := push_spec hh.run.inv p nb
    simp only [step, e, R.bind_ok, R.ok.injEq] at hs
    rw [← hs]
    simp only
    by_cases hp : p ∈ l
    · rw [if_pos hp]
      have : b = false := by
        cases b with
        | false => rfl
        | true => exact absurd ((mem p).mpr hp) (hb.mp rfl)
      rw [this] at hsz
      refine ⟨n, by simpa [len] using hsz.symm, fun x => ?_⟩
      rw [hx, mem]
      exact ⟨fun c => c.elim id (fun e => e ▸ hp), Or.inl⟩
    · rw [if_neg hp]
      have : b = true := hb.mpr (fun c => hp ((mem p).mp c))
      rw [this] at hsz
      refine ⟨List.nodup_cons.mpr ⟨hp, n⟩, by simp [len, hsz], fun x => ?_⟩
      rw [hx, mem, List.mem_cons]
      exact Or.comm
  | @pop q l nb r hh hs ih =>
    obtain ⟨n, len, mem⟩ := ih
    obtain ⟨i, he, hne⟩ := pop_spec hh.run.inv nb
    simp only [step, R.ok.injEq] at hs
    rw [← hs]
    simp only
    by_cases h0 : q.size = 0
    · rw [he h0]
      exact ⟨n, len, mem⟩
    · obtain ⟨p, e, hp, _, hx, hsz⟩ := hne (by omega)
      rw [e]
      simp only
      have hpl := (mem p).mp hp
      refine ⟨n.erase p, by rw [List.length_erase_of_mem hpl, hsz, len], fun x => ?_⟩
      rw [hx, mem, n.mem_erase_iff]
      exact And.comm

/-- C76: the length, what is found, the result of a push and the element that comes out next, all in terms of what was put in and
not taken out: an element is put in unless it is there; the element that comes out has the smallest key, and none
comes out only if there is none. -/
theorem C76_queue {key : Nat → Nat} {q : Q} {l : List Nat} (h : Hist key q l) :
    q.size = l.length ∧ l.Nodup ∧
    (∀ p, find q p = .ok (if p ∈ l then some p else none)) ∧
    (∀ p nb, ∃ r, step key q (.push p nb) = .ok (r, decide (p ∉ l), none)) ∧
    (∀ nb, ∃ r x, step key q (.pop nb) = .ok (r, false, x) ∧ x = peek q ∧
      (l = [] → x = none) ∧ (l ≠ [] → ∃ p, x = some p ∧ p ∈ l ∧ ∀ y ∈ l, key p ≤ key y)) := by
  obtain ⟨n, len, mem⟩ := h.spec
  have i := h.run.inv
  refine ⟨len.symm, n, fun p => ?_, fun p nb => ?_, fun nb => ?_⟩
  · obtain ⟨x, hx⟩ := (C76_safe h.run).2.1 p
    unfold find at hx ⊢
    cases hm : q.map p with
    | none =>
      have : ¬ p ∈ l := fun c => by
        have := (map_has i.good p).mpr ((mem p).mpr c)
        rw [hm] at this; simp at this
      rw [if_neg this]
    | some y =>
      obtain ⟨b, k⟩ := y
      have m := (i.good.map p b k).mp hm
      rw [if_pos ((mem p).mp ⟨k, m.2⟩)]
      have : (b == q.base && decide (k < q.heapSize)) = true := by
        rw [m.1]
        simp only [beq_self_eq_true, Bool.true_and, decide_eq_true_eq]
        have := i.fits
        omega
      simp only
      rw [this, R.assert_true, R.bind_ok, m.2.2]
  · obtain ⟨r, b, e, _, hb, _⟩ := push_spec i p nb
    refine ⟨r, ?_⟩
    simp only [step, e, R.bind_ok]
    have : b = decide (p ∉ l) := by
      rw [mem] at hb
      cases b <;> simp_all
    rw [this]
  · obtain ⟨_, he, hne⟩ := pop_spec i nb
    refine ⟨(pop key q nb).1, (pop key q nb).2, rfl, ?_, fun hl => ?_, fun hl => ?_⟩
    · unfold pop peek
      split
      · simp only; split <;> rfl
      · rfl
    · have : q.size = 0 := by rw [← len, hl]; rfl
      rw [he this]
    · have : 0 < q.size := by rw [← len]; exact List.length_pos_iff.mpr hl
      obtain ⟨p, e, hp, hmin, _⟩ := hne this
      exact ⟨p, e, (mem p).mp hp, fun y hy => hmin y ((mem y).mpr hy)⟩

/-- Taking out `n` elements one after the other. -/
def drain (key : Nat → Nat) : Nat → Q → List Nat
  | 0, _ => []
  | n + 1, q => match pop key q 0 with
    | (r, some p) => p :: drain key n r
    | (_, none) => []

/-- C76: taking out everything gives all elements in the order of their keys. -/
theorem C76_sorted {key : Nat → Nat} {q : Q} {l : List Nat} (h : Hist key q l) :
    (drain key q.size q).Pairwise (fun a b => key a ≤ key b) ∧ (drain key q.size q).Perm l := by
  have gen : ∀ (n : Nat) (q : Q) (l : List Nat), Hist key q l → q.size = n →
      (drain key n q).Pairwise (fun a b => key a ≤ key b) ∧ (drain key n q).Perm l := by
    intro n
    induction n with
    | zero =>
      intro q l h hn
      have := h.spec.2.1
      have : l = [] := List.eq_nil_of_length_eq_zero (by omega)
      rw [this]
      exact ⟨List.Pairwise.nil, List.Perm.refl _⟩
    | succ n ih =>
      intro q l h hn
      obtain ⟨nd, len, mem⟩ := h.spec
      obtain ⟨_, _, hne⟩ := pop_spec h.run.inv 0
      obtain ⟨p, e, hp, hmin, hx, hsz⟩ := hne (by omega)
      have hd : drain key (n + 1) q = p :: drain key n (pop key q 0).1 := by
        have ed : drain key (n + 1) q = match pop key q 0 with
          | (r, some p) => p :: drain key n r
          | (_, none) => [] := rfl
        rw [ed]
        generalize hpop : pop key q 0 = w at *
        obtain ⟨r, o⟩ := w
        simp only at e
        subst e
        rfl
      have hh : Hist key (pop key q 0).1 (l.erase p) := by
        have := Hist.pop (r := ((pop key q 0).1, false, (pop key q 0).2)) h (nb := 0) rfl
        simp only at this
        rw [e] at this
        exact this
      obtain ⟨a, b⟩ := ih _ _ hh (by omega)
      rw [hd]
      refine ⟨List.pairwise_cons.mpr ⟨fun y hy => ?_, a⟩, ?_⟩
      · have : y ∈ l.erase p := b.mem_iff.mp hy
        exact hmin y ((mem y).mpr (List.mem_of_mem_erase this))
      · exact (List.Perm.cons p b).trans (List.perm_cons_erase ((mem p).mp hp)).symm
  exact gen q.size q l h rfl

end Shadow.PrioQ
