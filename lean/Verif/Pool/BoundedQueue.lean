import Verif.Pool.Bounded
import Verif.Pool.Latches

/-!
# The thread pool of the thread-per-host scheduler: the queues
-/
namespace Shadow.Pool.Bounded

open Shadow.Base Shadow.Latch

theorem upd_same {α β : Type} [DecidableEq α] (f : α → β) (i : α) (x : β) : upd f i x i = x := by simp [upd]
theorem upd_ne {α β : Type} [DecidableEq α] (f : α → β) (i j : α) (x : β) (h : j ≠ i) : upd f i x j = f j := by simp [upd, h]
theorem upd_self {α β : Type} [DecidableEq α] (f : α → β) (i : α) : upd f i (f i) = f := by
  funext j; unfold upd; split
  · next h => rw [h]
  · rfl

/-- Who calls `start_next_thread`: the main thread or a thread. -/
abbrev Agent := Option Nat

/-- The thread that was taken from a queue and has not been released. -/
def Sub.held : Sub → Option Nat
  | .push w _ | .assign w _ | .flag w => some w
  | _ => none

/-- The same, when it is in the other queue. -/
def Sub.pushed : Sub → Option Nat
  | .assign w _ | .flag w => some w
  | _ => none

/-- Where a thread is in this round: in the queue of threads that are ready, taken by an agent, released. -/
inductive Place
  | ready
  | held (a : Agent)
  | out
deriving DecidableEq

/-- `x` is the step that an agent is at. -/
def heldIn (x : Option (Nat × Sub)) : Option Nat := x.bind fun y => y.2.held
def pushedIn (x : Option (Nat × Sub)) : Option (Nat × Nat) := x.bind fun y => y.2.pushed.map (·, y.1)

def isDone (st : Agent → Option (Nat × Sub)) (lpi : Nat → Nat) (i q : Nat) : Place → Prop
  | .ready => False
  | .out => lpi i = q
  | .held a => pushedIn (st a) = some (i, q)

structure Q (n P : Nat) (ready done : Nat → List Nat) (lpi : Nat → Nat) (st : Agent → Option (Nat × Sub)) (pl : Nat → Place) : Prop where
  rdy : ∀ i q, i ∈ ready q ↔ i < n ∧ pl i = .ready ∧ lpi i = q
  dn : ∀ i q, i ∈ done q ↔ i < n ∧ isDone st lpi i q (pl i)
  hld : ∀ i a, (i < n ∧ pl i = .held a) ↔ heldIn (st a) = some i
  nr : ∀ q, (ready q).Nodup
  nd : ∀ q, (done q).Nodup
  lp : ∀ i, i < n → lpi i < P
  pr : ∀ a p sub, st a = some (p, sub) → p < P
  sk : ∀ a p k, st a = some (p, .seek k) → k < P
  fr1 : ∀ a p w q, st a = some (p, .push w q) → lpi w = q
  fr2 : ∀ a p w q, st a = some (p, .assign w q) → lpi w = q
  flg : ∀ a p w, st a = some (p, .flag w) → lpi w = p

namespace Q

variable {n P : Nat} {ready done : Nat → List Nat} {lpi : Nat → Nat} {st : Agent → Option (Nat × Sub)} {pl : Nat → Place}

/-- An agent that holds nothing goes on to hold nothing. -/
theorem move (h : Q n P ready done lpi st pl) (a : Agent) (hh : heldIn (st a) = none) (x : Option (Nat × Sub))
    (hx : heldIn x = none) (h1 : ∀ p sub, x = some (p, sub) → p < P) (h2 : ∀ p k, x = some (p, .seek k) → k < P) : Q n P ready done lpi (upd st a x) pl := by
  have hst : ∀ b, b ≠ a → upd st a x b = st b := fun b hb => upd_ne _ _ _ _ hb
  have hsa : upd st a x a = x := upd_same _ _ _
  refine ⟨h.rdy, ?_, ?_, h.nr, h.nd, h.lp, ?_, ?_, ?_, ?_, ?_⟩
  · intro i q
    rw [h.dn i q]
    cases hp : pl i with
    | ready => rfl
    | out => rfl
    | held b =>
      by_cases e : b = a
      · subst e
        constructor
        · rintro ⟨hi, _⟩
          have := (h.hld i b).1 ⟨hi, hp⟩
          rw [hh] at this; cases this
        · rintro ⟨hi, _⟩
          have := (h.hld i b).1 ⟨hi, hp⟩
          rw [hh] at this; cases this
      · simp only [isDone, hst b e]
  · intro i b
    rw [h.hld i b]
    by_cases e : b = a
    · subst e; rw [hsa, hh, hx]
    · rw [hst b e]
  all_goals
    intro b
    by_cases e : b = a
    · subst e; rw [hsa]
      first
        | exact h1
        | exact h2
        | (intros; subst x; simp [heldIn, Sub.held] at hx)
    · rw [hst b e]
      first
        | exact h.pr b
        | exact h.sk b
        | exact h.fr1 b
        | exact h.fr2 b
        | exact h.flg b

theorem pop (h : Q n P ready done lpi st pl) {a : Agent} {p k w q : Nat} {l : List Nat} (ha : st a = some (p, .seek k)) (hr : ready q = w :: l) :
    Q n P (upd ready q l) done lpi (upd st a (some (p, .push w q))) (upd pl w (.held a)) := by
  have hw := (h.rdy w q).1 (by rw [hr]; simp)
  have hnd := h.nr q
  rw [hr] at hnd
  have hwl : w ∉ l := (List.nodup_cons.1 hnd).1
  have hpr := h.pr a p _ ha
  have hno : ∀ i, i < n → pl i ≠ .held a := by
    intro i hi hp
    have := (h.hld i a).1 ⟨hi, hp⟩
    rw [ha] at this; cases this
  have hst : ∀ b, b ≠ a → upd st a (some (p, .push w q)) b = st b := fun b hb => upd_ne _ _ _ _ hb
  have hsa : upd st a (some (p, .push w q)) a = some (p, .push w q) := upd_same _ _ _
  refine ⟨?_, ?_, ?_, ?_, h.nd, h.lp, ?_, ?_, ?_, ?_, ?_⟩
  · intro i r
    have h1 := h.rdy i r
    by_cases er : r = q
    · subst er
      rw [upd_same]
      rw [hr, List.mem_cons] at h1
      by_cases ei : i = w
      · subst ei; rw [upd_same]; simp [hwl]
      · rw [upd_ne _ _ _ _ ei, ← h1]; simp [ei]
    · rw [upd_ne _ _ _ _ er]
      by_cases ei : i = w
      · subst ei
        rw [upd_same, h1]
        constructor
        · rintro ⟨_, _, h2⟩; exact absurd (h2.symm.trans hw.2.2) er
        · rintro ⟨_, h2, _⟩; cases h2
      · rw [upd_ne _ _ _ _ ei, h1]
  · intro i r
    rw [h.dn i r]
    by_cases ei : i = w
    · subst ei
      rw [upd_same, hw.2.1]
      simp [isDone, upd_same, pushedIn, Sub.pushed]
    · rw [upd_ne _ _ _ _ ei]
      cases hp : pl i with
      | ready => rfl
      | out => rfl
      | held b =>
        by_cases e : b = a
        · subst e
          constructor <;> (rintro ⟨hi, _⟩; exact absurd hp (hno i hi))
        · simp only [isDone, hst b e]
  · intro i b
    by_cases e : b = a
    · subst e
      rw [hsa]
      by_cases ei : i = w
      · subst ei; simp [upd_same, heldIn, Sub.held, hw.1]
      · rw [upd_ne _ _ _ _ ei]
        constructor
        · rintro ⟨hi, hp⟩; exact absurd hp (hno i hi)
        · intro hc; simp [heldIn, Sub.held] at hc; exact absurd hc.symm ei
    · rw [hst b e, ← h.hld i b]
      by_cases ei : i = w
      · subst ei
        rw [upd_same, hw.2.1]
        constructor
        · rintro ⟨_, hc⟩; cases hc; exact absurd rfl e
        · rintro ⟨_, hc⟩; cases hc
      · rw [upd_ne _ _ _ _ ei]
  · intro r
    by_cases er : r = q
    · subst er; rw [upd_same]; exact (List.nodup_cons.1 hnd).2
    · rw [upd_ne _ _ _ _ er]; exact h.nr r
  all_goals
    intro b
    by_cases e : b = a
    · subst e; rw [hsa]
      first
        | (intro p' sub' hc; cases hc; exact hpr)
        | (intro p' k' hc; cases hc; done)
        | (intro p' w' q' hc; cases hc; exact hw.2.2)
        | (intro p' w' q' hc; cases hc; done)
    · rw [hst b e]
      first
        | exact h.pr b
        | exact h.sk b
        | exact h.fr1 b
        | exact h.fr2 b
        | exact h.flg b

theorem push (h : Q n P ready done lpi st pl) {a : Agent} {p w q : Nat} (ha : st a = some (p, .push w q)) :
    Q n P ready (upd done p (done p ++ [w])) lpi (upd st a (some (p, .assign w q))) pl := by
  have hw := (h.hld w a).2 (by rw [ha]; rfl)
  have hpr := h.pr a p _ ha
  have hfr := h.fr1 a p w q ha
  have huniq : ∀ i, i < n → pl i = .held a → i = w := by
    intro i hi hp
    have := (h.hld i a).1 ⟨hi, hp⟩
    rw [ha] at this
    simp [heldIn, Sub.held] at this
    exact this.symm
  have hwd : ∀ r, w ∉ done r := by
    intro r hc
    have := (h.dn w r).1 hc
    rw [hw.2] at this
    simp [isDone, ha, pushedIn, Sub.pushed] at this
  have hst : ∀ b, b ≠ a → upd st a (some (p, .assign w q)) b = st b := fun b hb => upd_ne _ _ _ _ hb
  have hsa : upd st a (some (p, .assign w q)) a = some (p, .assign w q) := upd_same _ _ _
  refine ⟨h.rdy, ?_, ?_, h.nr, ?_, h.lp, ?_, ?_, ?_, ?_, ?_⟩
  · intro i r
    have key : i ∈ upd done p (done p ++ [w]) r ↔ i ∈ done r ∨ (i = w ∧ r = p) := by
      by_cases er : r = p
      · subst er; rw [upd_same]; simp
      · rw [upd_ne _ _ _ _ er]; simp [er]
    rw [key]
    by_cases ei : i = w
    · subst ei
      rw [hw.2]
      simp [isDone, hsa, pushedIn, Sub.pushed, hwd r, hw.1, eq_comm]
    · simp only [ei, false_and, or_false]
      rw [h.dn i r]
      cases hp : pl i with
      | ready => rfl
      | out => rfl
      | held b =>
        by_cases e : b = a
        · subst e
          constructor <;> (rintro ⟨hi, _⟩; exact absurd (huniq i hi hp) ei)
        · simp only [isDone, hst b e]
  · intro i b
    rw [h.hld i b]
    by_cases e : b = a
    · subst e; rw [hsa, ha]; rfl
    · rw [hst b e]
  · intro r
    by_cases er : r = p
    · subst er
      rw [upd_same, List.nodup_append]
      refine ⟨h.nd r, by simp, ?_⟩
      intro x hx y hy
      simp only [List.mem_singleton] at hy
      rintro rfl
      subst hy
      exact hwd r hx
    · rw [upd_ne _ _ _ _ er]; exact h.nd r
  all_goals
    intro b
    by_cases e : b = a
    · subst e; rw [hsa]
      first
        | (intro p' sub' hc; cases hc; exact hpr)
        | (intro p' k' hc; cases hc; done)
        | (intro p' w' q' hc; cases hc; exact hfr)
        | (intro p' w' q' hc; cases hc; done)
    · rw [hst b e]
      first
        | exact h.pr b
        | exact h.sk b
        | exact h.fr1 b
        | exact h.fr2 b
        | exact h.flg b

theorem assign (h : Q n P ready done lpi st pl) {a : Agent} {p w q : Nat} (ha : st a = some (p, .assign w q)) :
    Q n P ready done (upd lpi w p) (upd st a (some (p, .flag w))) pl := by
  have hw := (h.hld w a).2 (by rw [ha]; rfl)
  have hpr := h.pr a p _ ha
  have huniq : ∀ i, i < n → pl i = .held a → i = w := by
    intro i hi hp
    have := (h.hld i a).1 ⟨hi, hp⟩
    rw [ha] at this
    simp [heldIn, Sub.held] at this
    exact this.symm
  have hst : ∀ b, b ≠ a → upd st a (some (p, .flag w)) b = st b := fun b hb => upd_ne _ _ _ _ hb
  have hsa : upd st a (some (p, .flag w)) a = some (p, .flag w) := upd_same _ _ _
  have hother : ∀ b p' sub' w', b ≠ a → st b = some (p', sub') → sub'.held = some w' → w' ≠ w := by
    intro b p' sub' w' hb hs hh e
    subst e
    have := (h.hld w' b).2 (by rw [hs]; exact hh)
    rw [hw.2] at this
    have := this.2
    cases this
    exact hb rfl
  refine ⟨?_, ?_, ?_, h.nr, h.nd, ?_, ?_, ?_, ?_, ?_, ?_⟩
  · intro i r
    rw [h.rdy i r]
    by_cases ei : i = w
    · subst ei; rw [hw.2]; simp
    · rw [upd_ne _ _ _ _ ei]
  · intro i r
    rw [h.dn i r]
    by_cases ei : i = w
    · subst ei
      rw [hw.2]
      simp [isDone, hsa, ha, pushedIn, Sub.pushed]
    · cases hp : pl i with
      | ready => rfl
      | out => simp only [isDone, upd_ne _ _ _ _ ei]
      | held b =>
        by_cases e : b = a
        · subst e
          constructor <;> (rintro ⟨hi, _⟩; exact absurd (huniq i hi hp) ei)
        · simp only [isDone, hst b e]
  · intro i b
    rw [h.hld i b]
    by_cases e : b = a
    · subst e; rw [hsa, ha]; rfl
    · rw [hst b e]
  · intro i hi
    by_cases ei : i = w
    · subst ei; rw [upd_same]; exact hpr
    · rw [upd_ne _ _ _ _ ei]; exact h.lp i hi
  · intro b p' sub'
    by_cases e : b = a
    · subst e; rw [hsa]; intro hc; cases hc; exact hpr
    · rw [hst b e]; exact h.pr b p' sub'
  · intro b p' k'
    by_cases e : b = a
    · subst e; rw [hsa]; intro hc; cases hc
    · rw [hst b e]; exact h.sk b p' k'
  · intro b p' w' q'
    by_cases e : b = a
    · subst e; rw [hsa]; intro hc; cases hc
    · rw [hst b e]; intro hc; rw [upd_ne _ _ _ _ (hother b p' _ w' e hc rfl)]; exact h.fr1 b p' w' q' hc
  · intro b p' w' q'
    by_cases e : b = a
    · subst e; rw [hsa]; intro hc; cases hc
    · rw [hst b e]; intro hc; rw [upd_ne _ _ _ _ (hother b p' _ w' e hc rfl)]; exact h.fr2 b p' w' q' hc
  · intro b p' w'
    by_cases e : b = a
    · subst e; rw [hsa]; intro hc; cases hc; rw [upd_same]
    · rw [hst b e]; intro hc; rw [upd_ne _ _ _ _ (hother b p' _ w' e hc rfl)]; exact h.flg b p' w' hc

theorem release (h : Q n P ready done lpi st pl) {a : Agent} {p w : Nat} (ha : st a = some (p, .flag w)) :
    Q n P ready done lpi (upd st a (some (p, .unpark w))) (upd pl w .out) := by
  have hw := (h.hld w a).2 (by rw [ha]; rfl)
  have hpr := h.pr a p _ ha
  have hfl := h.flg a p w ha
  have huniq : ∀ i, i < n → pl i = .held a → i = w := by
    intro i hi hp
    have := (h.hld i a).1 ⟨hi, hp⟩
    rw [ha] at this
    simp [heldIn, Sub.held] at this
    exact this.symm
  have hst : ∀ b, b ≠ a → upd st a (some (p, .unpark w)) b = st b := fun b hb => upd_ne _ _ _ _ hb
  have hsa : upd st a (some (p, .unpark w)) a = some (p, .unpark w) := upd_same _ _ _
  refine ⟨?_, ?_, ?_, h.nr, h.nd, h.lp, ?_, ?_, ?_, ?_, ?_⟩
  · intro i r
    rw [h.rdy i r]
    by_cases ei : i = w
    · subst ei; rw [hw.2, upd_same]; simp
    · rw [upd_ne _ _ _ _ ei]
  · intro i r
    rw [h.dn i r]
    by_cases ei : i = w
    · subst ei
      rw [hw.2, upd_same]
      simp [isDone, ha, pushedIn, Sub.pushed, hfl]
    · rw [upd_ne _ _ _ _ ei]
      cases hp : pl i with
      | ready => rfl
      | out => rfl
      | held b =>
        by_cases e : b = a
        · subst e
          constructor <;> (rintro ⟨hi, _⟩; exact absurd (huniq i hi hp) ei)
        · simp only [isDone, hst b e]
  · intro i b
    by_cases e : b = a
    · subst e
      rw [hsa]
      constructor
      · rintro ⟨hi, hp⟩
        by_cases ei : i = w
        · subst ei; rw [upd_same] at hp; cases hp
        · rw [upd_ne _ _ _ _ ei] at hp; exact absurd (huniq i hi hp) ei
      · intro hc; simp [heldIn, Sub.held] at hc
    · rw [hst b e, ← h.hld i b]
      by_cases ei : i = w
      · subst ei
        rw [upd_same, hw.2]
        constructor
        · rintro ⟨_, hc⟩; cases hc
        · rintro ⟨_, hc⟩; cases hc; exact absurd rfl e
      · rw [upd_ne _ _ _ _ ei]
  all_goals
    intro b
    by_cases e : b = a
    · subst e; rw [hsa]
      first
        | (intro p' sub' hc; cases hc; exact hpr)
        | (intro p' k' hc; cases hc; done)
        | (intro p' w' q' hc; cases hc; done)
    · rw [hst b e]
      first
        | exact h.pr b
        | exact h.sk b
        | exact h.fr1 b
        | exact h.fr2 b
        | exact h.flg b

end Q

end Shadow.Pool.Bounded
