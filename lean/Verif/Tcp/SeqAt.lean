import Verif.Tcp.SeqProps

/-!
# Sequence numbers as positions in a stream

`pos i x` is the sequence number of position `x` of a stream whose first position has sequence
number `i`.  Positions are unbounded natural numbers.
-/
namespace Shadow.Tcp

def pos (i x : Nat) : Nat := (i + x) % M

namespace SeqAt

open SeqProps

theorem pos_lt (i x : Nat) : pos i x < M := Nat.mod_lt _ (by omega)

theorem add_pos (i x n : Nat) : Seq.add (pos i x) n = pos i (x + n) := by
  simp only [Seq.add, pos]; omega

theorem pos_zero (i : Nat) (h : i < M) : pos i 0 = i := by simp only [pos]; omega

theorem pos_inj {i x y : Nat} (h : pos i x = pos i y) (hle : x ≤ y) (hlt : y < x + M) : x = y := by
  simp only [pos] at h; omega

theorem sub_pos (i x y : Nat) (hle : x ≤ y) (hlt : y < x + M) : Seq.sub (pos i y) (pos i x) = y - x := by
  simp only [Seq.sub, pos]; omega

theorem new_pos (i x : Nat) : Seq.new (pos i x) = pos i x := by simp only [Seq.new, pos]; omega

theorem new_lt (s : Nat) : Seq.new s < M := Nat.mod_lt _ (by omega)

theorem new_of_lt {s : Nat} (h : s < M) : Seq.new s = s := Nat.mod_eq_of_lt h

theorem add_zero' {s : Nat} (h : s < M) : Seq.add s 0 = s := Nat.mod_eq_of_lt h

theorem len_pos (i x n : Nat) (hn : n < M) : SeqRange.len ⟨pos i x, pos i (x + n)⟩ = n := by
  simp only [SeqRange.len]
  rw [sub_pos i x (x + n) (by omega) (by omega)]; omega

/-- Membership in a range of positions. -/
theorem contains_pos (i a e s : Nat) (hae : a ≤ e) (hlt : e < a + M) (hs : s < M) :
    SeqRange.contains ⟨pos i a, pos i e⟩ s = true ↔ ∃ p, a ≤ p ∧ p < e ∧ s = pos i p := by
  rw [contains_sub]
  simp only
  rw [sub_pos i a e hae hlt]
  constructor
  · intro h
    refine ⟨a + Seq.sub s (pos i a), by omega, by omega, ?_⟩
    simp only [Seq.sub, pos]; omega
  · rintro ⟨p, h1, h2, rfl⟩
    rw [sub_pos i a p h1 (by omega)]; omega

/-- Membership of a position in a range of positions, when no wrap can confuse them. -/
theorem contains_pos_pos (i a e p : Nat) (hae : a ≤ e) (hlt : e < a + M) (h1 : a ≤ p) (h2 : p < a + M) :
    SeqRange.contains ⟨pos i a, pos i e⟩ (pos i p) = true ↔ p < e := by
  rw [contains_sub]
  simp only
  rw [sub_pos i a e hae hlt, sub_pos i a p h1 h2]
  omega

/-- Every sequence number is a position at or after a given one. -/
theorem exists_pos (i a s : Nat) (hs : s < M) : ∃ p, a ≤ p ∧ p < a + M ∧ s = pos i p := by
  refine ⟨a + Seq.sub s (pos i a), by omega, ?_, ?_⟩
  · simp only [Seq.sub, pos]; omega
  · simp only [Seq.sub, pos]; omega

end SeqAt
end Shadow.Tcp
