/-!
# Computations that may panic

`R α` is the result of a Rust function that returns an `α` or panics (failed `assert!`,
`unwrap` on `None`, `unreachable!`).  A panic carries no value: the process ends.
-/
namespace Shadow.Base

inductive R (α : Type) where
  | ok (a : α)
  | panic
deriving Repr, DecidableEq

namespace R

variable {α β γ : Type}

def bind : R α → (α → R β) → R β
  | ok a, f => f a
  | panic, _ => panic

instance : Monad R where
  pure := ok
  bind := R.bind

@[simp] theorem bind_ok (a : α) (f : α → R β) : (ok a >>= f) = f a := rfl
@[simp] theorem bind_panic (f : α → R β) : ((panic : R α) >>= f) = panic := rfl
@[simp] theorem pure_eq (a : α) : (pure a : R α) = ok a := rfl

/-- Rust's `assert!`. -/
def assert (b : Bool) : R Unit := if b then ok () else panic

/-- Rust's `Option::unwrap`. -/
def unwrap : Option α → R α
  | some a => ok a
  | none => panic

@[simp] theorem assert_true : assert true = ok () := rfl
@[simp] theorem assert_false : assert false = panic := rfl
@[simp] theorem unwrap_some (a : α) : unwrap (some a) = ok a := rfl
@[simp] theorem unwrap_none : unwrap (none : Option α) = panic := rfl

theorem assert_eq_ok {b : Bool} {u : Unit} : assert b = ok u ↔ b = true := by
  cases b <;> simp

theorem bind_eq_ok {x : R α} {f : α → R β} {b : β} :
    (x >>= f) = ok b ↔ ∃ a, x = ok a ∧ f a = ok b := by
  cases x with
  | ok a => simp
  | panic => simp

theorem bind_eq_panic {x : R α} {f : α → R β} :
    (x >>= f) = panic ↔ x = panic ∨ ∃ a, x = ok a ∧ f a = panic := by
  cases x with
  | ok a => simp
  | panic => simp

/-- The computation returns normally. -/
def Ok (x : R α) : Prop := ∃ a, x = ok a

theorem ok_Ok (a : α) : Ok (ok a) := ⟨a, rfl⟩

theorem Ok_iff (x : R α) : Ok x ↔ x ≠ panic := by
  cases x with
  | ok a => simp [Ok]
  | panic => simp [Ok]

end R
end Shadow.Base
