/-!
# Sorting does not depend on the order of the input

Helper for code that collects a hash map into a vector and sorts it: the iteration order of the map
is arbitrary, so the input of the sort is an arbitrary permutation.
-/
namespace Shadow.Base

/-- Sorting two permutations of one list with a comparison that is antisymmetric on its elements
    gives the same result. -/
theorem mergeSort_perm_eq {α : Type} {le : α → α → Bool} {l₁ l₂ : List α}
    (trans : ∀ a b c, le a b → le b c → le a c) (total : ∀ a b, le a b || le b a)
    (anti : ∀ a b, a ∈ l₁ → b ∈ l₁ → le a b → le b a → a = b) (h : l₁.Perm l₂) :
    l₁.mergeSort le = l₂.mergeSort le := by
  apply List.Perm.eq_of_pairwise (le := fun a b => le a b = true)
  · intro a b ha hb hab hba
    exact anti a b ((List.mergeSort_perm l₁ le).mem_iff.mp ha)
      (h.mem_iff.mpr ((List.mergeSort_perm l₂ le).mem_iff.mp hb)) hab hba
  · exact List.pairwise_mergeSort trans total l₁
  · exact List.pairwise_mergeSort trans total l₂
  · exact (List.mergeSort_perm l₁ le).trans (h.trans (List.mergeSort_perm l₂ le).symm)

end Shadow.Base
