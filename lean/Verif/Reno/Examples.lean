import Verif.Reno.Props

/-! Concrete connections that meet the hypotheses of the theorems of C74. -/

namespace Shadow.Reno

/-- Slow start with duplicates between the acknowledgements: the window is 1 + 7. -/
example : Small [.ack 1, .dup, .dup, .ack 2, .dup, .ack 4] ∧ Quiet [.ack 1, .dup, .dup, .ack 2, .dup, .ack 4] ∧
    Calm 0 [.ack 1, .dup, .dup, .ack 2, .dup, .ack 4] ∧ (run init [.ack 1, .dup, .dup, .ack 2, .dup, .ack 4]).cwnd = 8 := by
  refine ⟨by unfold Small; decide, by unfold Quiet; decide, by simp [Calm], by decide +kernel⟩

/-- A connection that lost a packet at a window of 20: threshold 11, then congestion avoidance from 11. -/
def lost : List Ev := [.ack 19, .dup, .dup, .dup, .dup, .ack 5]

example : (run init lost).phase = .avoid ∧ (run init lost).cwnd = 11 ∧ (run init lost).nacked = 5 ∧
    (run init lost).ssthresh = 11 ∧ (run init lost).dup = 0 := by decide +kernel

/-- The hypotheses of `C74_loss`: the window was 20 and two duplicates were there. -/
example : (run init [.ack 19, .dup, .dup]).phase ≠ .fast ∧ (run init [.ack 19, .dup, .dup]).dup = 2 ∧
    (run init [.ack 19, .dup, .dup]).cwnd = 20 ∧
    (run init ([.ack 19, .dup, .dup] ++ (.dup :: List.replicate 1 .dup))).cwnd = 15 := by decide +kernel

/-- The hypotheses of `C74_avoid`: 30 more packets raise the window to 13. -/
example : (run init lost).dup + dups [.ack 10, .dup, .ack 20] < 3 ∧ Quiet [.ack 10, .dup, .ack 20] ∧
    (run init (lost ++ [.ack 10, .dup, .ack 20])).cwnd = 13 ∧ (run init (lost ++ [.ack 10, .dup, .ack 20])).nacked = 12 ∧
    Grown 11 (5 + 30) 13 12 := by
  refine ⟨by decide +kernel, by unfold Quiet; decide, by decide +kernel, by decide +kernel, 2, rfl, by decide, by decide⟩

/-- The hypotheses of `C74_slow` and `C74_threshold` after a timeout at a window of 60: threshold 31. -/
example : (run init [.ack 59, .timeout]).phase = .slow ∧ (run init [.ack 59, .timeout]).ssthresh = 31 ∧
    (run init [.ack 59, .timeout]).cwnd + acked [.ack 8, .ack 8] < 31 ∧
    (run init [.ack 59, .timeout, .ack 8, .ack 8]).cwnd = 26 ∧
    (run init [.ack 59, .timeout, .ack 8, .ack 8, .ack 8]).phase = .avoid ∧
    (run init [.ack 59, .timeout, .ack 8, .ack 8, .ack 8]).cwnd = 31 ∧
    (run init [.ack 59, .timeout, .ack 8, .ack 8, .ack 8]).nacked = 3 := by decide +kernel

/-- The finding: three duplicates with a hundred packets acknowledged between each halve the window of 23. -/
example : (run init (lost ++ [.dup, .ack 100, .dup, .ack 100])).cwnd = 23 ∧
    (run init (lost ++ [.dup, .ack 100, .dup, .ack 100, .dup])).ssthresh = 12 ∧
    (run init (lost ++ [.dup, .ack 100, .dup, .ack 100, .dup])).phase = .fast := by decide +kernel

/-- The finding: after a timeout at a window of four the next acknowledgement takes the window from 10 to 5. -/
example : (run init [.ack 3, .timeout]).cwnd = 10 ∧ (run init [.ack 3, .timeout, .ack 1]).cwnd = 5 := by decide +kernel

end Shadow.Reno
