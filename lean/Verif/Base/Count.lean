/-!
# Counting the elements of a list with a property
-/
namespace Shadow.Base

theorem countP_set {α : Type} (f : α → Bool) : ∀ (l : List α) (i : Nat) (p q : α), l[i]? = some p →
    (l.set i q).countP f + (f p).toNat = l.countP f + (f q).toNat
  | [], _, _, _, h => by simp at h
  | x :: l, 0, p, q, h => by
      simp only [List.getElem?_cons_zero, Option.some.injEq] at h
      subst h
      simp only [List.set_cons_zero, List.countP_cons]
      cases f x <;> cases f q <;> simp
  | x :: l, i + 1, p, q, h => by
      simp only [List.getElem?_cons_succ] at h
      have := countP_set f l i p q h
      simp only [List.set_cons_succ, List.countP_cons]
      omega

theorem countP_pos {α : Type} (f : α → Bool) (l : List α) : 0 < l.countP f ↔ ∃ (i : Nat) (p : α), l[i]? = some p ∧ f p = true := by
  rw [List.countP_pos_iff]
  constructor
  · rintro ⟨p, hp, hf⟩
    obtain ⟨i, hi⟩ := List.getElem?_of_mem hp
    exact ⟨i, p, hi, hf⟩
  · rintro ⟨i, p, hi, hf⟩
    exact ⟨p, List.mem_of_getElem? hi, hf⟩

theorem countP_zero {α : Type} (f : α → Bool) (l : List α) : l.countP f = 0 ↔ ∀ p ∈ l, f p = false := by
  rw [List.countP_eq_zero]
  constructor
  · intro h p hp
    have := h p hp
    cases hf : f p
    · rfl
    · exact absurd hf this
  · intro h p hp hf
    rw [h p hp] at hf
    cases hf

theorem forall_set {α : Type} {P : α → Prop} {l : List α} (h : ∀ p ∈ l, P p) {q : α} (hq : P q) (i : Nat) : ∀ p ∈ l.set i q, P p := by
  intro p hp
  rcases List.mem_or_eq_of_mem_set hp with h1 | rfl
  · exact h p h1
  · exact hq

theorem getElem?_set_self' {α : Type} {l : List α} {i : Nat} {p q : α} (h : l[i]? = some p) : (l.set i q)[i]? = some q := by
  have : i < l.length := by
    rw [List.getElem?_eq_some_iff] at h
    exact h.1
  simp [this]

end Shadow.Base
