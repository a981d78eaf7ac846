import Verif.Reno.Model

/-!
# C74: the congestion window grows and shrinks as Reno says
-/

namespace Shadow.Reno

/-! ## Specification -/

/-- How many packets must be acknowledged for the window to grow from `w` to `w + k`: one window of packets for each. -/
def need (w : Nat) : Nat → Nat
  | 0 => 0
  | k + 1 => need w k + (w + k)

/-- A window `w` has become `w'` after `a` packets were acknowledged, `left` of which count for the next increase. -/
def Grown (w a w' left : Nat) : Prop := ∃ k, w' = w + k ∧ a = need w k + left ∧ left < w'

/-- How many packets a sequence of reports acknowledges. -/
def acked : List Ev → Nat
  | [] => 0
  | .ack n :: es => n + acked es
  | _ :: es => acked es

/-- How many duplicates a sequence of reports holds. -/
def dups : List Ev → Nat
  | [] => 0
  | .dup :: es => dups es + 1
  | _ :: es => dups es

/-- No report is a timeout. -/
def Quiet (es : List Ev) : Prop := Ev.timeout ∉ es

/-- The number of duplicates in a row at the end of a sequence of reports, with `d` before it. -/
def inRow (d : Nat) : List Ev → Nat
  | [] => d
  | .dup :: es => inRow (d + 1) es
  | _ :: es => inRow 0 es

/-- No three duplicates follow each other, with `d` before the sequence. -/
def Calm (d : Nat) : List Ev → Prop
  | [] => d < 3
  | .dup :: es => d < 3 ∧ Calm (d + 1) es
  | _ :: es => d < 3 ∧ Calm 0 es

/-- All counters stay below 2^31: sequence numbers of a connection are smaller and are never used twice. -/
def Small (es : List Ev) : Prop := acked es + dups es + 10 < 2147483647

/-! ## Growth -/

theorem need_mono (w k : Nat) (hw : 1 ≤ w) : k ≤ need w k := by
  induction k with
  | zero => exact Nat.le_refl _
  | succ k ih => simp only [need]; omega

theorem need_add (w k j : Nat) : need w (k + j) = need w k + need (w + k) j := by
  induction j with
  | zero => simp [need]
  | succ j ih => rw [← Nat.add_assoc]; simp only [need]; rw [ih]; omega

theorem Grown.le {w a w' l} (h : Grown w a w' l) (hw : 1 ≤ w) : w ≤ w' ∧ w' + l ≤ w + a ∧ l < w' := by
  obtain ⟨k, rfl, rfl, hl⟩ := h
  have := need_mono w k hw
  omega

theorem need_lt {w j k : Nat} (h : j < k) : need w j + (w + j) ≤ need w k := by
  obtain ⟨i, rfl⟩ : ∃ i, k = (j + 1) + i := ⟨k - (j + 1), by omega⟩
  rw [need_add]
  simp only [need]
  omega

theorem Grown.unique {w a w1 l1 w2 l2} (h1 : Grown w a w1 l1) (h2 : Grown w a w2 l2) : w1 = w2 ∧ l1 = l2 := by
  obtain ⟨k, rfl, ha, hl⟩ := h1
  obtain ⟨j, rfl, hb, hm⟩ := h2
  rcases Nat.lt_trichotomy j k with h | h | h
  · have := need_lt (w := w) h; omega
  · subst h; omega
  · have := need_lt (w := w) h; omega

theorem Grown.trans {w a w1 l1 b w2 l2} (h1 : Grown w a w1 l1) (h2 : Grown w1 (l1 + b) w2 l2) :
    Grown w (a + b) w2 l2 := by
  obtain ⟨k, rfl, rfl, hl⟩ := h1
  obtain ⟨j, rfl, hb, hm⟩ := h2
  exact ⟨k + j, by omega, by rw [need_add]; omega, hm⟩

/-- The loop computes the growth, and its bound on the number of rounds is not reached. -/
theorem avoidLoop_grown (k na w : Nat) (hw : 1 ≤ w) (hk : na < k) (hb : na + w + 1 < M) :
    Grown w na (avoidLoop k na w).2 (avoidLoop k na w).1 := by
  induction k generalizing na w with
  | zero => omega
  | succ k ih =>
    unfold avoidLoop
    split
    · rename_i h
      have e1 : sub na w = na - w := by unfold sub; simp only [M] at *; omega
      have e2 : add w 1 = w + 1 := by unfold add; simp only [M] at *; omega
      rw [e1, e2]
      obtain ⟨j, a, b, c⟩ := ih (na - w) (w + 1) (by omega) (by omega) (by omega)
      refine ⟨1 + j, by omega, ?_, by omega⟩
      rw [need_add]
      simp only [need, Nat.add_zero, Nat.zero_add]
      omega
    · exact ⟨0, rfl, by simp [need], by omega⟩

/-- For every input, also those that overflow, the loop has ended when the bound is reached. -/
theorem avoidLoop_done (na w : Nat) (hn : na < M) (hw : w < M) :
    (avoidLoop (na + 3) na w).1 < (avoidLoop (na + 3) na w).2 := by
  have main : ∀ k na w, 1 ≤ w → na < M → w < M → na + 2 ≤ k →
      (avoidLoop k na w).1 < (avoidLoop k na w).2 := by
    intro k
    induction k with
    | zero => intros; omega
    | succ k ih =>
      intro na w h1 h2 h3 h5
      unfold avoidLoop
      split
      · rename_i h
        have e1 : sub na w = na - w := by unfold sub; simp only [M] at *; omega
        rw [e1]
        by_cases hm : w + 1 = M
        · have e2 : add w 1 = 0 := by unfold add; rw [hm]; exact Nat.mod_self M
          rw [e2]
          have e3 : na - w = 0 := by omega
          rw [e3]
          obtain ⟨k', rfl⟩ : ∃ k', k = k' + 1 := ⟨k - 1, by omega⟩
          unfold avoidLoop
          rw [if_pos (Nat.le_refl 0)]
          have e4 : sub 0 0 = 0 := by decide
          have e5 : add 0 1 = 1 := by decide
          rw [e4, e5]
          cases k' with
          | zero => simp [avoidLoop]
          | succ k'' => unfold avoidLoop; simp
        · have e2 : add w 1 = w + 1 := by unfold add; simp only [M] at *; omega
          rw [e2]
          exact ih (na - w) (w + 1) (by omega) (by omega) (by omega) (by omega)
      · simp only; omega
  by_cases h0 : w = 0
  · subst h0
    unfold avoidLoop
    rw [if_pos (Nat.zero_le _)]
    have e1 : sub na 0 = na := by unfold sub; simp only [M] at *; omega
    have e5 : add 0 1 = 1 := by decide
    rw [e1, e5]
    exact main (na + 2) na 1 (by omega) hn (by simp only [M]; omega) (by omega)
  · exact main (na + 3) na w (by omega) hn hw (by omega)

/-! ## The invariant -/

/-- What holds after `c` packets were acknowledged and `d` duplicates were seen. -/
structure Inv (c d : Nat) (r : Reno) : Prop where
  w1 : 1 ≤ r.cwnd
  wb : r.cwnd + (if r.phase = .fast then 0 else r.dup) + (if r.phase = .avoid then r.nacked else 0) ≤ 10 + c + d
  s1 : 1 ≤ r.ssthresh
  sb : r.ssthresh ≤ 2147483647
  du : r.phase ≠ .fast → r.dup ≤ 2
  na : r.phase = .avoid → r.nacked < r.cwnd
  fa : r.phase = .fast → r.ssthresh + 3 ≤ r.cwnd

theorem inv_init : Inv 0 0 init := by
  constructor <;> simp [init]

/-- The window as a function of what was acknowledged: exact in slow start up to the threshold, then one per window. -/
def After (r : Reno) (n : Nat) (r' : Reno) : Prop :=
  match r.phase with
  | .slow =>
    r'.dup = 0 ∧ r'.ssthresh = r.ssthresh ∧
    if r.cwnd + n < r.ssthresh then r'.phase = .slow ∧ r'.cwnd = r.cwnd + n ∧ r'.nacked = r.nacked
    else r'.phase = .avoid ∧ Grown r.ssthresh (r.cwnd + n - r.ssthresh) r'.cwnd r'.nacked
  | .fast => r'.dup = 0 ∧ r'.ssthresh = r.ssthresh ∧ r'.phase = .avoid ∧ Grown r.ssthresh n r'.cwnd r'.nacked
  | .avoid => r'.dup = r.dup ∧ r'.ssthresh = r.ssthresh ∧ r'.phase = .avoid ∧ Grown r.cwnd (r.nacked + n) r'.cwnd r'.nacked

theorem add_eq {a b : Nat} (h : a + b < M) : add a b = a + b := Nat.mod_eq_of_lt h

theorem sub_eq {a b : Nat} (h : b ≤ a) (ha : a < M) : sub a b = a - b := by
  unfold sub; simp only [M] at *; omega

theorem newAck_after {c d : Nat} {r : Reno} (h : Inv c d r) (n : Nat) (hb : 10 + c + d + n < 2147483647) :
    After r n (newAck r n) := by
  have h1 := h.wb; have h2 := h.w1; have h3 := h.s1; have h4 := h.sb; have h5 := h.na
  have hM : M = 4294967296 := rfl
  unfold After newAck
  cases hp : r.phase with
  | slow =>
    simp only [hp] at h1 ⊢
    unfold slowAck toAvoid avoidAck
    have hw : r.cwnd ≤ 10 + c + d := by omega
    have e : add r.cwnd n = r.cwnd + n := add_eq (by omega)
    simp only [e]
    by_cases hlt : r.cwnd + n < r.ssthresh
    · rw [if_neg (by omega), if_pos hlt]
      simp [hp]
    · rw [if_pos (by omega), if_neg hlt]
      rw [sub_eq (by omega) (by omega)]
      have e0 : add 0 (r.cwnd + n - r.ssthresh) = r.cwnd + n - r.ssthresh := by rw [add_eq (by omega)]; omega
      rw [e0]
      refine ⟨rfl, rfl, rfl, ?_⟩
      exact avoidLoop_grown _ _ _ h3 (by omega) (by omega)
  | fast =>
    simp only [hp] at h1 ⊢
    have hf := h.fa hp
    unfold fastAck toAvoid avoidAck
    have hw : r.cwnd ≤ 10 + c + d := by simpa using h1
    have e0 : add 0 n = n := by rw [add_eq (by omega)]; omega
    simp only [e0]
    refine ⟨trivial, trivial, trivial, ?_⟩
    exact avoidLoop_grown _ _ _ h3 (by omega) (by omega)
  | avoid =>
    have hl := h5 hp
    simp only [hp] at h1 ⊢
    unfold avoidAck
    have hw : r.cwnd + r.dup + r.nacked ≤ 10 + c + d := by simpa using h1
    have e0 : add r.nacked n = r.nacked + n := add_eq (by omega)
    simp only [e0, hp]
    refine ⟨trivial, trivial, trivial, ?_⟩
    exact avoidLoop_grown _ _ _ h2 (by omega) (by omega)

/-- What an acknowledgement leaves is determined. -/
theorem After.unique {r a b n} (h1 : After r n a) (h2 : After r n b) : a = b := by
  have ext : ∀ x y : Reno, x.phase = y.phase → x.dup = y.dup → x.nacked = y.nacked → x.ssthresh = y.ssthresh →
      x.cwnd = y.cwnd → x = y := by
    intro x y; cases x; cases y; simp_all
  unfold After at h1 h2
  cases hp : r.phase <;> simp only [hp] at h1 h2
  · obtain ⟨a1, a2, a3⟩ := h1
    obtain ⟨b1, b2, b3⟩ := h2
    by_cases hlt : r.cwnd + n < r.ssthresh
    · rw [if_pos hlt] at a3 b3
      exact ext _ _ (by rw [a3.1, b3.1]) (by rw [a1, b1]) (by rw [a3.2.2, b3.2.2]) (by rw [a2, b2]) (by rw [a3.2.1, b3.2.1])
    · rw [if_neg hlt] at a3 b3
      have u := a3.2.unique b3.2
      exact ext _ _ (by rw [a3.1, b3.1]) (by rw [a1, b1]) u.2 (by rw [a2, b2]) u.1
  · obtain ⟨a1, a2, a3, a4⟩ := h1
    obtain ⟨b1, b2, b3, b4⟩ := h2
    have u := a4.unique b4
    exact ext _ _ (by rw [a3, b3]) (by rw [a1, b1]) u.2 (by rw [a2, b2]) u.1
  · obtain ⟨a1, a2, a3, a4⟩ := h1
    obtain ⟨b1, b2, b3, b4⟩ := h2
    have u := a4.unique b4
    exact ext _ _ (by rw [a3, b3]) (by rw [a1, b1]) u.2 (by rw [a2, b2]) u.1

theorem inv_ack {c d : Nat} {r : Reno} (h : Inv c d r) (n : Nat) (hb : 10 + c + d + n < 2147483647) :
    Inv (c + n) d (newAck r n) := by
  have a := newAck_after h n hb
  have h1 := h.wb; have h2 := h.w1; have h3 := h.s1; have h4 := h.sb; have h6 := h.du
  unfold After at a
  cases hp : r.phase <;> simp only [hp] at a
  · obtain ⟨a1, a2, a3⟩ := a
    simp only [hp] at h1
    by_cases hlt : r.cwnd + n < r.ssthresh
    · rw [if_pos hlt] at a3
      obtain ⟨b1, b2, _⟩ := a3
      constructor <;> simp_all <;> omega
    · rw [if_neg hlt] at a3
      obtain ⟨b1, b2⟩ := a3
      have g := b2.le h3
      constructor <;> simp_all <;> omega
  · obtain ⟨a1, a2, b1, b2⟩ := a
    have g := b2.le h3
    have hf := h.fa hp
    constructor <;> simp_all <;> omega
  · obtain ⟨a1, a2, b1, b2⟩ := a
    have g := b2.le h2
    have hn := h.na hp
    constructor <;> simp_all <;> omega

theorem inv_dup {c d : Nat} {r : Reno} (h : Inv c d r) (hb : 10 + c + d + 1 < 2147483647) : Inv c (d + 1) (dupAck r) := by
  have h1 := h.wb; have h2 := h.w1; have h3 := h.s1; have h4 := h.sb; have h6 := h.du
  have hM : M = 4294967296 := rfl
  unfold dupAck
  have main : r.phase ≠ .fast → Inv c (d + 1) (slowDup r) := by
    intro hp
    have h7 := h6 hp
    rw [if_neg hp] at h1
    unfold slowDup halve
    by_cases h3' : r.dup = 2
    · simp only [h3', beq_self_eq_true, if_true]
      have e1 : add (r.cwnd / 2) 1 = r.cwnd / 2 + 1 := add_eq (by omega)
      rw [e1, add_eq (by omega)]
      constructor <;> simp <;> omega
    · have : (r.dup + 1 == 3) = false := by simpa using by omega
      simp only [this]
      have hn := h.na
      constructor <;> simp_all <;> omega
  cases hp : r.phase with
  | slow => exact main (by simp [hp])
  | avoid => exact main (by simp [hp])
  | fast =>
    have hf := h.fa hp
    rw [if_pos hp] at h1
    simp only
    rw [add_eq (by omega)]
    constructor <;> simp_all <;> omega

theorem inv_timeout {c d : Nat} {r : Reno} (h : Inv c d r) (hb : 10 + c + d < 2147483647) : Inv c d (timeout r) := by
  have h1 := h.wb; have h2 := h.w1
  have hM : M = 4294967296 := rfl
  have hw : r.cwnd ≤ 10 + c + d := by split at h1 <;> omega
  unfold timeout halve
  simp only
  rw [add_eq (by omega)]
  constructor <;> simp <;> omega

theorem inv_run {c d : Nat} {r : Reno} (h : Inv c d r) (es : List Ev) (hb : 10 + (c + acked es) + (d + dups es) < 2147483647) :
    Inv (c + acked es) (d + dups es) (run r es) := by
  induction es generalizing c d r with
  | nil => exact h
  | cons e es ih =>
    have hr : run r (e :: es) = run (step r e) es := rfl
    rw [hr]
    cases e with
    | ack n =>
      simp only [acked, dups, step] at *
      have := ih (inv_ack h n (by omega)) (by omega)
      rw [show c + (n + acked es) = c + n + acked es by omega]
      exact this
    | dup =>
      simp only [acked, dups, step] at *
      have := ih (inv_dup h (by omega)) (by omega)
      rw [show d + (dups es + 1) = d + 1 + dups es by omega]
      exact this
    | timeout =>
      simp only [acked, dups, step] at *
      exact ih (inv_timeout h (by omega)) (by omega)

/-- A state that a connection can be in, after so many acknowledged packets and duplicates. -/
theorem inv_reached (es : List Ev) (hs : Small es) : Inv (acked es) (dups es) (run init es) := by
  unfold Small at hs
  have := inv_run inv_init es (by omega)
  rwa [Nat.zero_add, Nat.zero_add] at this

theorem run_append (r : Reno) (a b : List Ev) : run r (a ++ b) = run (run r a) b := List.foldl_append ..

theorem acked_append (a b : List Ev) : acked (a ++ b) = acked a + acked b := by
  induction a with
  | nil => simp [acked]
  | cons e a ih => cases e <;> simp only [List.cons_append, acked, ih] <;> omega

theorem dups_append (a b : List Ev) : dups (a ++ b) = dups a + dups b := by
  induction a with
  | nil => simp [dups]
  | cons e a ih => cases e <;> simp only [List.cons_append, dups, ih] <;> omega

/-! ## C74 -/

/-- C74: the window never overflows: it is at least one packet and at most ten more than the packets that were
acknowledged and the duplicates. What may be sent is never more than the peer allows, and something if it allows it. -/
theorem C74_bounds (es : List Ev) (hs : Small es) (win : Nat) :
    1 ≤ (run init es).cwnd ∧ (run init es).cwnd ≤ 10 + acked es + dups es ∧
    sendWindow (run init es) win ≤ win ∧ sendWindow (run init es) win ≤ (run init es).cwnd ∧
    (1 ≤ win → 1 ≤ sendWindow (run init es) win) := by
  have h := inv_reached es hs
  have h1 := h.w1; have h2 := h.wb
  unfold sendWindow
  refine ⟨h1, ?_, Nat.min_le_right .., Nat.min_le_left .., by omega⟩
  split at h2 <;> omega

theorem slow_run {c d : Nat} {r : Reno} (h : Inv c d r) (hp : r.phase = .slow) (es : List Ev) (hq : Quiet es)
    (hc : Calm r.dup es) (hb : 10 + (c + acked es) + (d + dups es) < 2147483647) (hlt : r.cwnd + acked es < r.ssthresh) :
    (run r es).phase = .slow ∧ (run r es).cwnd = r.cwnd + acked es ∧ (run r es).ssthresh = r.ssthresh ∧
    (run r es).dup = inRow r.dup es := by
  induction es generalizing c d r with
  | nil => exact ⟨hp, rfl, rfl, rfl⟩
  | cons e es ih =>
    have hr : run r (e :: es) = run (step r e) es := rfl
    rw [hr]
    have hq' : Quiet es := fun m => hq (List.mem_cons_of_mem _ m)
    cases e with
    | ack n =>
      simp only [acked, dups, step, Calm, inRow] at *
      have a := newAck_after h n (by omega)
      unfold After at a
      simp only [hp] at a
      rw [if_pos (by omega)] at a
      obtain ⟨a1, a2, a3, a4, _⟩ := a
      have i := inv_ack h n (by omega)
      have := ih i a3 hq' (by rw [a1]; exact hc.2) (by omega) (by omega)
      obtain ⟨b1, b2, b3, b4⟩ := this
      exact ⟨b1, by omega, by omega, by rw [b4, a1]⟩
    | dup =>
      simp only [acked, dups, step, Calm, inRow] at *
      have hd : r.dup + 1 ≠ 3 := by
        intro e3
        have : Calm (r.dup + 1) es := hc.2
        cases es with
        | nil => simp only [Calm] at this; omega
        | cons x xs => cases x <;> simp only [Calm] at this <;> omega
      have e1 : dupAck r = { r with dup := r.dup + 1 } := by
        unfold dupAck slowDup
        simp only [hp]
        rw [if_neg (by simpa using by omega)]
      rw [e1]
      have i := inv_dup h (by omega)
      rw [e1] at i
      exact ih i hp hq' hc.2 (by omega) hlt
    | timeout => exact absurd (List.mem_cons_self ..) hq

theorem avoid_run {c d : Nat} {r : Reno} (h : Inv c d r) (hp : r.phase = .avoid) (es : List Ev) (hq : Quiet es)
    (hd : r.dup + dups es < 3) (hb : 10 + (c + acked es) + (d + dups es) < 2147483647) :
    (run r es).phase = .avoid ∧ Grown r.cwnd (r.nacked + acked es) (run r es).cwnd (run r es).nacked ∧
    (run r es).ssthresh = r.ssthresh ∧ (run r es).dup = r.dup + dups es := by
  induction es generalizing c d r with
  | nil =>
    have := h.na hp
    exact ⟨hp, ⟨0, rfl, by simp [need, acked, run], by simpa [run] using this⟩, rfl, rfl⟩
  | cons e es ih =>
    have hr : run r (e :: es) = run (step r e) es := rfl
    rw [hr]
    have hq' : Quiet es := fun m => hq (List.mem_cons_of_mem _ m)
    cases e with
    | ack n =>
      simp only [acked, dups, step] at *
      have a := newAck_after h n (by omega)
      unfold After at a
      simp only [hp] at a
      obtain ⟨a1, a2, a3, a4⟩ := a
      have i := inv_ack h n (by omega)
      obtain ⟨b1, b2, b3, b4⟩ := ih i a3 hq' (by omega) (by omega)
      refine ⟨b1, ?_, by omega, by omega⟩
      have := a4.trans b2
      rwa [Nat.add_assoc] at this
    | dup =>
      simp only [acked, dups, step] at *
      have e1 : dupAck r = { r with dup := r.dup + 1 } := by
        unfold dupAck slowDup
        simp only [hp]
        rw [if_neg (by simpa using by omega)]
      rw [e1]
      have i := inv_dup h (by omega)
      rw [e1] at i
      obtain ⟨b1, b2, b3, b4⟩ := ih i hp hq' (by simp only; omega) (by omega)
      exact ⟨b1, b2, b3, by simp only [] at b4; omega⟩
    | timeout => exact absurd (List.mem_cons_self ..) hq

/-- C74: until the first loss the window is one packet more than was acknowledged, however the acknowledgements are
divided and whatever duplicates come between them, as long as no three follow each other. -/
theorem C74_first (es : List Ev) (hs : Small es) (hq : Quiet es) (hc : Calm 0 es) :
    (run init es).cwnd = 1 + acked es ∧ (run init es).phase = .slow := by
  have := slow_run inv_init rfl es hq hc (by unfold Small at hs; omega) (by unfold Small at hs; simp only [init]; omega)
  exact ⟨this.2.1, this.1⟩

/-- C74: in slow start, at any point of a connection: below the threshold the window grows by the number of packets
that are acknowledged. The counter of duplicates is the number of those in a row. -/
theorem C74_slow (es xs : List Ev) (hs : Small (es ++ xs)) (hp : (run init es).phase = .slow) (hq : Quiet xs)
    (hc : Calm (run init es).dup xs) (hlt : (run init es).cwnd + acked xs < (run init es).ssthresh) :
    (run init (es ++ xs)).phase = .slow ∧ (run init (es ++ xs)).cwnd = (run init es).cwnd + acked xs ∧
    (run init (es ++ xs)).ssthresh = (run init es).ssthresh ∧
    (run init (es ++ xs)).dup = inRow (run init es).dup xs := by
  unfold Small at hs
  rw [acked_append, dups_append] at hs
  rw [run_append]
  exact slow_run (inv_reached es (by unfold Small; omega)) hp xs hq hc (by omega) hlt

/-- C74: in congestion avoidance, at any point of a connection: the window grows by one for each window of packets that
is acknowledged, and what is left counts for the next one, however the acknowledgements are divided. -/
theorem C74_avoid (es xs : List Ev) (hs : Small (es ++ xs)) (hp : (run init es).phase = .avoid) (hq : Quiet xs)
    (hd : (run init es).dup + dups xs < 3) :
    (run init (es ++ xs)).phase = .avoid ∧
    Grown (run init es).cwnd ((run init es).nacked + acked xs) (run init (es ++ xs)).cwnd (run init (es ++ xs)).nacked ∧
    (run init (es ++ xs)).ssthresh = (run init es).ssthresh := by
  unfold Small at hs
  rw [acked_append, dups_append] at hs
  rw [run_append]
  have := avoid_run (inv_reached es (by unfold Small; omega)) hp xs hq hd (by omega)
  exact ⟨this.1, this.2.1, this.2.2.1⟩

/-- C74: in slow start, acknowledgements that reach the threshold raise the window to it, and the rest counts for
congestion avoidance. -/
theorem C74_threshold (es : List Ev) (n : Nat) (hs : Small (es ++ [.ack n])) (hp : (run init es).phase = .slow)
    (hge : (run init es).ssthresh ≤ (run init es).cwnd + n) :
    (run init (es ++ [.ack n])).phase = .avoid ∧
    Grown (run init es).ssthresh ((run init es).cwnd + n - (run init es).ssthresh)
      (run init (es ++ [.ack n])).cwnd (run init (es ++ [.ack n])).nacked ∧
    (run init (es ++ [.ack n])).ssthresh = (run init es).ssthresh ∧ (run init (es ++ [.ack n])).dup = 0 := by
  unfold Small at hs
  rw [acked_append, dups_append] at hs
  simp only [acked, dups] at hs
  have h := inv_reached es (by unfold Small; omega)
  have a := newAck_after h n (by omega)
  have hr : run init (es ++ [.ack n]) = newAck (run init es) n := by rw [run_append]; rfl
  rw [hr]
  unfold After at a
  simp only [hp] at a
  rw [if_neg (by omega)] at a
  exact ⟨a.2.2.1, a.2.2.2, a.2.1, a.1⟩

theorem dup_k {c d : Nat} {r : Reno} (h : Inv c d r) (hp : r.phase = .fast) (k : Nat) (hb : 10 + c + (d + k) < 2147483647) :
    run r (List.replicate k .dup) = { r with cwnd := r.cwnd + k } := by
  induction k generalizing d r with
  | zero => rfl
  | succ k ih =>
    have hr : run r (List.replicate (k + 1) .dup) = run (dupAck r) (List.replicate k .dup) := rfl
    have h1 := h.wb
    rw [if_pos hp] at h1
    have e : dupAck r = { r with cwnd := r.cwnd + 1 } := by
      unfold dupAck
      simp only [hp]
      rw [add_eq (by simp only [M]; omega)]
    have i := inv_dup h (by omega)
    rw [hr, e]
    rw [e] at i
    rw [ih i hp (by omega)]
    simp only [Reno.mk.injEq, true_and]
    omega

/-- C74: at the third duplicate the threshold becomes half of the window and one, and the window that and three; every
further duplicate adds one, and the next acknowledgement brings the window back to the threshold, from which it grows
by one for each window of packets. -/
theorem C74_loss (es : List Ev) (k n : Nat) (hs : Small (es ++ (.dup :: List.replicate k .dup ++ [.ack n])))
    (hp : (run init es).phase ≠ .fast) (hd : (run init es).dup = 2) :
    let half := (run init es).cwnd / 2 + 1
    (run init (es ++ (.dup :: List.replicate k .dup))).cwnd = half + 3 + k ∧
    (run init (es ++ (.dup :: List.replicate k .dup))).ssthresh = half ∧
    (run init (es ++ (.dup :: List.replicate k .dup))).phase = .fast ∧
    (run init (es ++ (.dup :: List.replicate k .dup ++ [.ack n]))).phase = .avoid ∧
    (run init (es ++ (.dup :: List.replicate k .dup ++ [.ack n]))).ssthresh = half ∧
    (run init (es ++ (.dup :: List.replicate k .dup ++ [.ack n]))).dup = 0 ∧
    Grown half n (run init (es ++ (.dup :: List.replicate k .dup ++ [.ack n]))).cwnd
      (run init (es ++ (.dup :: List.replicate k .dup ++ [.ack n]))).nacked := by
  have ar : ∀ k, acked (List.replicate k .dup) = 0 := by
    intro k; induction k with
    | zero => rfl
    | succ k ih => simpa [List.replicate_succ, acked] using ih
  have dr : ∀ k, dups (List.replicate k .dup) = k := by
    intro k; induction k with
    | zero => rfl
    | succ k ih => simp [List.replicate_succ, dups, ih]
  unfold Small at hs
  rw [acked_append, dups_append, List.cons_append] at hs
  simp only [acked, dups] at hs
  rw [acked_append, dups_append, ar, dr] at hs
  simp only [acked, dups] at hs
  have h := inv_reached es (by unfold Small; omega)
  have h1 := h.wb
  rw [if_neg hp] at h1
  generalize hgr : run init es = r at *
  have hM : M = 4294967296 := rfl
  have e1 : dupAck r = { r with dup := 3, ssthresh := r.cwnd / 2 + 1, cwnd := r.cwnd / 2 + 1 + 3, phase := .fast } := by
    have : dupAck r = slowDup r := by
      unfold dupAck
      cases hph : r.phase <;> simp_all
    rw [this]
    unfold slowDup halve
    simp only [hd, beq_self_eq_true, if_true]
    rw [add_eq (by omega), add_eq (by omega)]
  have i := inv_dup h (by omega)
  have ek := dup_k i (by rw [e1]) k (by omega)
  have hrun : run init (es ++ (.dup :: List.replicate k .dup)) = { dupAck r with cwnd := (dupAck r).cwnd + k } := by
    rw [run_append, hgr]
    exact ek
  have ik := inv_run i (List.replicate k .dup) (by rw [ar, dr]; omega)
  have hrun2 : run init (es ++ (.dup :: List.replicate k .dup ++ [.ack n])) =
      newAck { dupAck r with cwnd := (dupAck r).cwnd + k } n := by
    rw [← List.append_assoc, run_append, hrun]
    rfl
  rw [ek, ar, dr] at ik
  have a := newAck_after ik n (by omega)
  unfold After at a
  rw [hrun, hrun2]
  rw [e1] at a ⊢
  simp only at a ⊢
  exact ⟨trivial, trivial, trivial, a.2.2.1, a.2.1, a.1, a.2.2.2⟩

/-- C74: at a timeout the threshold becomes half of the window and one, and the window ten; the acknowledgements that
follow raise it to the threshold, and by one for each window of packets from there. -/
theorem C74_timeout (es : List Ev) (n : Nat) (hs : Small (es ++ [.timeout, .ack n])) :
    let half := (run init es).cwnd / 2 + 1
    let r1 := run init (es ++ [.timeout])
    let r2 := run init (es ++ [.timeout, .ack n])
    r1.phase = .slow ∧ r1.cwnd = 10 ∧ r1.ssthresh = half ∧ r1.dup = 0 ∧ r2.ssthresh = half ∧
    (10 + n < half → r2.phase = .slow ∧ r2.cwnd = 10 + n) ∧
    (half ≤ 10 + n → r2.phase = .avoid ∧ Grown half (10 + n - half) r2.cwnd r2.nacked) := by
  unfold Small at hs
  rw [acked_append, dups_append] at hs
  simp only [acked, dups] at hs
  have h := inv_reached es (by unfold Small; omega)
  have h1 := h.wb
  intro half r1 r2
  have hM : M = 4294967296 := rfl
  have hw : (run init es).cwnd ≤ 10 + acked es + dups es := by split at h1 <;> omega
  have e1 : r1 = { run init es with dup := 0, ssthresh := half, cwnd := 10, phase := .slow } := by
    show run init (es ++ [.timeout]) = _
    rw [run_append]
    show timeout (run init es) = _
    unfold timeout halve
    simp only
    rw [add_eq (by omega)]
  have i := inv_timeout h (by omega)
  have e2 : r2 = newAck r1 n := by
    show run init (es ++ [.timeout, .ack n]) = _
    rw [run_append]
    show newAck (timeout (run init es)) n = newAck (run init (es ++ [.timeout])) n
    rw [run_append]
    rfl
  have et : timeout (run init es) = r1 := by
    show _ = run init (es ++ [.timeout])
    rw [run_append]
    rfl
  rw [et] at i
  have a := newAck_after i n (by omega)
  rw [← e2] at a
  unfold After at a
  rw [e1] at a
  simp only at a
  obtain ⟨a1, a2, a3⟩ := a
  refine ⟨by rw [e1], by rw [e1], by rw [e1], by rw [e1], a2, ?_, ?_⟩
  · intro hlt
    rw [if_pos hlt] at a3
    exact ⟨a3.1, a3.2.1⟩
  · intro hge
    rw [if_neg (by omega)] at a3
    exact a3

/-- C74: it does not matter whether packets are acknowledged together or one after the other. -/
theorem C74_batch (es : List Ev) (a b : Nat) (hs : Small (es ++ [.ack a, .ack b])) :
    run init (es ++ [.ack a, .ack b]) = run init (es ++ [.ack (a + b)]) := by
  unfold Small at hs
  rw [acked_append, dups_append] at hs
  simp only [acked, dups] at hs
  have h := inv_reached es (by unfold Small; omega)
  rw [run_append, run_append]
  show newAck (newAck (run init es) a) b = newAck (run init es) (a + b)
  generalize run init es = r at *
  have h1 := newAck_after h a (by omega)
  have i := inv_ack h a (by omega)
  have h2 := newAck_after i b (by omega)
  have h3 := newAck_after h (a + b) (by omega)
  have key : After r (a + b) (newAck (newAck r a) b) := by
    generalize newAck (newAck r a) b = y at *
    generalize newAck r a = x at *
    unfold After at h1 ⊢
    cases hp : r.phase <;> simp only [hp] at h1 ⊢
    · obtain ⟨a1, a2, a3⟩ := h1
      by_cases hlt : r.cwnd + a < r.ssthresh
      · rw [if_pos hlt] at a3
        obtain ⟨a4, a5, a6⟩ := a3
        unfold After at h2
        simp only [a4] at h2
        obtain ⟨b1, b2, b3⟩ := h2
        by_cases hl2 : x.cwnd + b < x.ssthresh
        · rw [if_pos hl2] at b3
          rw [if_pos (by omega)]
          exact ⟨b1, by omega, b3.1, by omega, by rw [b3.2.2, a6]⟩
        · rw [if_neg hl2] at b3
          rw [if_neg (by omega)]
          have e : x.cwnd + b - x.ssthresh = r.cwnd + (a + b) - r.ssthresh := by omega
          rw [e, a2] at b3
          exact ⟨b1, by omega, b3.1, b3.2⟩
      · rw [if_neg hlt] at a3
        obtain ⟨a4, a5⟩ := a3
        unfold After at h2
        simp only [a4] at h2
        obtain ⟨b1, b2, b3, b4⟩ := h2
        rw [if_neg (by omega)]
        have g := a5.trans b4
        have e : r.cwnd + a - r.ssthresh + b = r.cwnd + (a + b) - r.ssthresh := by omega
        rw [e] at g
        exact ⟨by omega, by omega, b3, g⟩
    · obtain ⟨a1, a2, a4, a5⟩ := h1
      unfold After at h2
      simp only [a4] at h2
      obtain ⟨b1, b2, b3, b4⟩ := h2
      exact ⟨by omega, by omega, b3, a5.trans b4⟩
    · obtain ⟨a1, a2, a4, a5⟩ := h1
      unfold After at h2
      simp only [a4] at h2
      obtain ⟨b1, b2, b3, b4⟩ := h2
      have g := a5.trans b4
      rw [Nat.add_assoc] at g
      exact ⟨by omega, by omega, b3, g⟩
  exact After.unique key h3

/-! ## Findings -/

/-- Finding: in congestion avoidance the counter of duplicates is never reset, so three duplicates count as a loss
however many packets were acknowledged between them. -/
theorem C74_dups_accumulate (es as bs : List Ev) (hs : Small (es ++ (.dup :: as ++ .dup :: bs ++ [.dup])))
    (hp : (run init es).phase = .avoid) (hd : (run init es).dup = 0) (ha : Quiet as ∧ dups as = 0) (hb : Quiet bs ∧ dups bs = 0) :
    (run init (es ++ (.dup :: as ++ .dup :: bs ++ [.dup]))).phase = .fast ∧
    (run init (es ++ (.dup :: as ++ .dup :: bs ++ [.dup]))).ssthresh =
      (run init (es ++ (.dup :: as ++ .dup :: bs))).cwnd / 2 + 1 := by
  have h := hs
  unfold Small at h
  have e : es ++ (.dup :: as ++ .dup :: bs ++ [.dup]) = (es ++ (.dup :: as ++ .dup :: bs)) ++ (.dup :: List.replicate 0 .dup) := by
    simp
  have e' : es ++ (.dup :: as ++ .dup :: bs ++ [.dup]) = (es ++ (.dup :: as ++ .dup :: bs)) ++ [.dup] := by simp
  rw [e', acked_append, dups_append, acked_append, dups_append] at h
  simp only [acked, dups] at h
  have hq : Quiet (.dup :: as ++ .dup :: bs) := by
    intro m
    simp at m
    rcases m with m | m
    · exact ha.1 m
    · exact hb.1 m
  have hdn : dups (.dup :: as ++ .dup :: bs) = 2 := by
    rw [dups_append]; simp only [dups, ha.2, hb.2]
  have r := avoid_run (inv_reached es (by unfold Small; omega)) hp _ hq (by rw [hd, hdn]; decide) (by omega)
  rw [← run_append] at r
  have i := inv_reached (es ++ (.dup :: as ++ .dup :: bs)) (by unfold Small; rw [acked_append, dups_append]; omega)
  rw [e', run_append]
  generalize run init (es ++ (.dup :: as ++ .dup :: bs)) = x at *
  have hw := i.wb
  rw [acked_append, dups_append] at hw
  rw [if_neg (by rw [r.1]; decide)] at hw
  show (dupAck x).phase = .fast ∧ (dupAck x).ssthresh = x.cwnd / 2 + 1
  have hx : x.dup = 2 := by rw [r.2.2.2, hd, hdn]
  unfold dupAck
  simp only [r.1]
  unfold slowDup halve
  simp only [hx, beq_self_eq_true, if_true]
  exact ⟨trivial, add_eq (by simp only [M]; omega)⟩

/-- Finding: a window smaller than ten, as every connection has at first, is raised by a timeout. -/
theorem C74_timeout_raises (r : Reno) (h : r.cwnd < 10) : r.cwnd < (timeout r).cwnd ∧ init.cwnd < 10 := by
  refine ⟨?_, by decide⟩
  unfold timeout halve
  exact h

/-- Finding: the acknowledgement after a timeout can make the window smaller. -/
theorem C74_ack_shrinks : ∃ es n, Small (es ++ [.ack n]) ∧ 0 < n ∧
    (run init (es ++ [.ack n])).cwnd < (run init es).cwnd :=
  ⟨[.ack 3, .timeout], 1, by unfold Small; decide, by decide, by decide +kernel⟩

end Shadow.Reno
