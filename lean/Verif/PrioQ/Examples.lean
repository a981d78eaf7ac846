import Verif.PrioQ.Props

/-! Concrete queues that meet the hypotheses of the theorems of C76. -/

namespace Shadow.PrioQ
open Shadow.Base

/-- The queue after some operations, with the results of the pops. -/
def exec (key : Nat → Nat) : Q → List Op → R (Q × List (Option Nat))
  | q, [] => .ok (q, [])
  | q, op :: ops => do
    let r ← step key q op
    let s ← exec key r.1 ops
    match op with
    | .push _ _ => R.ok s
    | .pop _ => R.ok (s.1, r.2.2 :: s.2)

/-- What is in a queue after some operations. -/
theorem exec_hist {key : Nat → Nat} {q : Q} {l : List Nat} (ops : List Op) (h : Hist key q l) {s} (hs : exec key q ops = .ok s) :
    ∃ l', Hist key s.1 l' := by
  induction ops generalizing q l s with
  | nil => simp only [exec, R.ok.injEq] at hs; exact ⟨l, hs ▸ h⟩
  | cons op ops ih =>
    simp only [exec] at hs
    rw [R.bind_eq_ok] at hs
    obtain ⟨r, h1, hs⟩ := hs
    rw [R.bind_eq_ok] at hs
    obtain ⟨t, h2, hs⟩ := hs
    cases op with
    | push p nb =>
      simp only [R.ok.injEq] at hs
      rw [← hs]
      exact ih (.push h h1) h2
    | pop nb =>
      simp only [R.ok.injEq] at hs
      obtain ⟨l', hl⟩ := ih (.pop h h1) h2
      exact ⟨l', by rw [← hs]; exact hl⟩

/-- Packets 1 to 6 with sequence numbers 30, 10, 50, 20, 40, 10, one of them twice. -/
def keys : Nat → Nat
  | 1 => 30 | 2 => 10 | 3 => 50 | 4 => 20 | 5 => 40 | 6 => 10 | _ => 0

def ops : List Op := [.push 1 0, .push 2 0, .push 3 0, .push 4 0, .push 2 0, .push 5 0, .push 6 0]

def outcome (x : R (Q × List (Option Nat))) : Option (List (Option Nat) × Nat) :=
  match x with
  | .ok s => some (s.2, s.1.size)
  | .panic => none

/-- Elements come out in the order of their keys. -/
example : outcome (exec keys (new 7 id) (ops ++ [.pop 0, .pop 0, .pop 0, .push 2 0, .pop 0, .pop 0, .pop 0, .pop 0, .pop 0])) =
    some ([some 2, some 6, some 4, some 2, some 1, some 5, some 3, none], 0) := by decide +kernel

example : (match exec keys (new 7 id) ops with | .ok s => drain keys s.1.size s.1 | .panic => []) = [2, 6, 4, 1, 5, 3] := by
  decide +kernel

/-- A hundred and one elements make the array larger and move it; the map still finds the first, and all come out. -/
def many : List Op := (List.range 101).map (fun i => .push (i + 1) 9)

example : (match exec (fun p => 200 - p) (new 7 id) many with
    | .ok s => decide (s.1.size = 101) && decide (s.1.heapSize = 200) && decide (s.1.base = 9) &&
        decide (find s.1 1 = .ok (some 1)) && decide (peek s.1 = some 101)
    | .panic => false) = true := by decide +kernel

end Shadow.PrioQ
