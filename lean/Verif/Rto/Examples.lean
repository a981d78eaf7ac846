import Verif.Rto.Props

/-! Concrete executions that meet the hypotheses of the theorems of C75. -/

namespace Shadow.Rto
open Shadow.Base

theorem exec_run {x y : T} (as : List Act) (hx : Run x) (h : exec x as = some y) : Run y := by
  induction as generalizing x with
  | nil => simp only [exec, Option.some.injEq] at h; exact h ▸ hx
  | cons a as ih =>
    simp only [exec] at h
    split at h
    · rename_i ha
      cases hs : step x a with
      | ok z => rw [hs] at h; exact ih (.step hx ha hs) h
      | panic => rw [hs] at h; exact absurd h (by simp)
    · exact absurd h (by simp)

theorem exec_path {x y : T} (as : List Act) (h : exec x as = some y) : Path x as y := by
  have gen : ∀ (as bs : List Act) (z : T), Path x bs z → exec z as = some y → Path x (bs ++ as) y := by
    intro as
    induction as with
    | nil => intro bs z hz h; simp only [exec, Option.some.injEq] at h; subst h; simpa using hz
    | cons a as ih =>
      intro bs z hz h
      simp only [exec] at h
      split at h
      · rename_i ha
        cases hs : step z a with
        | ok w =>
          rw [hs] at h
          have := ih (bs ++ [a]) w (.snoc hz ha hs) h
          simpa using this
        | panic => rw [hs] at h; exact absurd h (by simp)
      · exact absurd h (by simp)
  simpa using gen as [] x (.nil x) h

/-- What a run from a new socket at time 5 ends with. -/
def ends (as : List Act) (p : T → Bool) : Bool := (exec (fresh 5) as).any p

/-- A packet is sent at 5 and nobody answers: timeouts after 1, 2 and 4 seconds more. -/
def silent : List Act := [.send, .fire, .fire, .fire]

example : ends silent (fun y => y.log == [1000000005, 3000000005, 7000000005] && y.rto == 8000 && y.backoff == 3 &&
    y.desired == 15000000005) = true := by decide +kernel

/-- The hypotheses of `C75_backoff`. -/
example : ends [.send] (fun x => x.queued && !x.closed && x.desired != 0) = true ∧ (∀ a ∈ [Act.fire, .fire, .fire], Idle a) := by
  exact ⟨by decide +kernel, by intro a ha; simp at ha; subst ha; trivial⟩

/-- An acknowledgement moves the timer: the event of the first start finds that it is too early and waits again. -/
def moved : List Act :=
  [.send, .pass 400000005, .ack true false true, .echo 5, .fire, .pass 1399000000, .fire]

example : ends moved (fun y => y.log == [1400000005] && y.est == ⟨400, 200⟩ && y.rto == 2400 && y.backoff == 1) = true := by
  decide +kernel

/-- A timer that is started for a shorter time gets an event of its own before the old one, which later does nothing. -/
def shorter : List Act :=
  [.send, .pass 10000005, .echo 5, .resend true, .send, .fire, .pass 500000000, .ack true true false, .fire]

example : ends shorter (fun y => y.log == [210000005] && y.desired == 0 && y.rto == 400) = true ∧
    ends (shorter.take 5) (fun y => y.events == [210000005, 1000000005]) = true := by decide +kernel

/-- More than two timeouts, then an answer: the estimate starts afresh. -/
example : ends (silent ++ [.ack true false true]) (fun y => y.rto == 1000 && y.est == ⟨0, 0⟩ && y.backoff == 0) = true := by
  decide +kernel

/-- The hypotheses of `C75_estimate`, with the RFC's own numbers for comparison. -/
example : estimates (⟨0, 0⟩, 1000) [100, 120, 80] = .ok (⟨99, 36⟩, 243) ∧
    ([120, 80].foldl Rfc.next (Rfc.first 100)).s / ([120, 80].foldl Rfc.next (Rfc.first 100)).d = 99 ∧
    ([120, 80].foldl Rfc.next (Rfc.first 100)).v / ([120, 80].foldl Rfc.next (Rfc.first 100)).d = 37 := by decide +kernel

/-- The hypotheses of `C75_too_short`: with round trips of 203 ms the timeout is 200 ms in the end. -/
example : 200 ≤ 8 * (203 / 8) ∧ 203 % 8 ≤ 3 ∧
    estimates (⟨0, 0⟩, 1000) (List.replicate 20 203) = .ok (⟨200, 0⟩, 200) := by decide +kernel

/-- Such a socket: a packet is sent at 9000000000 and would be answered after 203 ms, but has timed out before. -/
def spurious : List Act :=
  [.send, .pass 203000005, .echo 5, .ack true true false] ++ (List.replicate 20 (.echo 5)) ++
  [.pass 1000000005, .fire, .pass 9000000000, .send, .fire]

example : ends spurious (fun y => y.log == [9200000000] && y.log.all (· < 9203000000)) = true := by decide +kernel

/-- These are runs. -/
theorem runs : (∃ y, Run y ∧ y.log = [1000000005, 3000000005, 7000000005]) ∧ (∃ y, Run y ∧ y.log = [9200000000]) := by
  have get : ∀ as l, ends as (fun y => y.log == l) = true → ∃ y, Run y ∧ y.log = l := by
    intro as l h
    unfold ends at h
    cases he : exec (fresh 5) as with
    | none => rw [he] at h; exact absurd h (by simp)
    | some y =>
      rw [he] at h
      exact ⟨y, exec_run as (.fresh 5 (by decide)) he, by simpa using h⟩
  exact ⟨get silent _ (by decide +kernel), get spurious _ (by decide +kernel)⟩

end Shadow.Rto
