import Verif.Files.Model
/-!
# What a program sees of descriptors and open files

A separate description, in terms of which descriptors a thread has, which open file each refers to, and which file a
blocked thread waits on.  It uses the data types of the model and none of its functions.
-/
namespace Shadow.Files

/-- Thread `t` is alive. -/
def Alive (w : World) (t : Nat) : Prop := ∃ th, w.threads[t]? = some (some th)

/-- Thread `t` has descriptor `d` at number `fd`. -/
def Sees (w : World) (t fd : Nat) (d : Desc) : Prop :=
  ∃ th tb, w.threads[t]? = some (some th) ∧ w.tables[th.table]? = some (some tb) ∧ (fd, d) ∈ tb.descs

/-- Thread `t` is blocked in a call on open file `f`. -/
def Waits (w : World) (t f : Nat) : Prop := ∃ th, w.threads[t]? = some (some th) ∧ th.active = some f

/-- Two live threads have the same descriptor table: what one opens or closes the other sees. -/
def Shares (w : World) (t u : Nat) : Prop :=
  ∃ a b, w.threads[t]? = some (some a) ∧ w.threads[u]? = some (some b) ∧ a.table = b.table

/-- Some thread can still use open file `f`. -/
def InUse (w : World) (f : Nat) : Prop := (∃ t fd d, Sees w t fd d ∧ d.file = f) ∨ ∃ t, Waits w t f

/-- The descriptors of a table: which number has which descriptor. -/
abbrev Fds := Nat → Desc → Prop

/-- Number `n` is not in use. -/
def Fds.Free (m : Fds) (n : Nat) : Prop := ∀ d, ¬ m n d

/-- `n` now has descriptor `x`, whatever was there before. -/
def Fds.put (m : Fds) (n : Nat) (x : Desc) : Fds := fun fd d => if fd = n then d = x else m fd d

/-- The numbers with property `p` are not in use any more. -/
def Fds.without (m : Fds) (p : Nat → Prop) : Fds := fun fd d => m fd d ∧ ¬ p fd

/-- The descriptors with property `p` now have the given close-on-exec flag. -/
def Fds.flagged (m : Fds) (p : Nat → Prop) (c : Bool) : Fds := fun fd d =>
  (¬ p fd ∧ m fd d) ∨ (p fd ∧ ∃ x, m fd x ∧ d = ⟨x.file, c⟩)

/-- What the calls on descriptors return and do to the caller's descriptors `m`, when `opened` files have been opened so
far.  The call fails and changes nothing, or succeeds and does this much and no more. -/
inductive Does (opened : Nat) (m : Fds) : Act → Ret → Fds → Prop
  | create {t c n} : n ≤ fdMax → m.Free n → Does opened m (.create t c (some n)) (.fd n) (m.put n ⟨opened, c⟩)
  | createFull {t c} : (∀ n, n ≤ fdMax → ¬ m.Free n) → Does opened m (.create t c none) .enfile m
  | pair {t c n k} : n ≤ fdMax → k ≤ fdMax → m.Free n → m.Free k → n ≠ k →
      Does opened m (.pair t c n k false) .done ((m.put n ⟨opened, c⟩).put k ⟨opened + 1, c⟩)
  | pairFault {t c n k} : Does opened m (.pair t c n k true) .efault m
  | dup {t c n fd d} : m fd d → n ≤ fdMax → m.Free n → c = Int.ofNat fd → Does opened m (.dup t c (some n)) (.fd n) (m.put n ⟨d.file, false⟩)
  | dupFull {t c fd d} : m fd d → c = Int.ofNat fd → (∀ n, n ≤ fdMax → ¬ m.Free n) → Does opened m (.dup t c none) .enfile m
  | dupBad {t c to} : (∀ fd, c = Int.ofNat fd → m.Free fd) → Does opened m (.dup t c to) .ebadf m
  | dup2 {t o n old new d} : m old d → o = Int.ofNat old → n = Int.ofNat new → new ≤ fdMax → old ≠ new →
      Does opened m (.dup2 t o n) (.fd new) (m.put new ⟨d.file, false⟩)
  | dup2Same {t o old d} : m old d → o = Int.ofNat old → Does opened m (.dup2 t o o) (.fd old) m
  | dup2Bad {t o n} : (∀ fd, o = Int.ofNat fd → m.Free fd) ∨ (∀ fd, fd ≤ fdMax → n ≠ Int.ofNat fd) → Does opened m (.dup2 t o n) .ebadf m
  | dup3 {t o n old new d c} : m old d → o = Int.ofNat old → n = Int.ofNat new → new ≤ fdMax → old ≠ new →
      Does opened m (.dup3 t o n (some c)) (.fd new) (m.put new ⟨d.file, c⟩)
  | dup3Bad {t o n fl} : ((∀ fd, o = Int.ofNat fd → m.Free fd) ∨ (o ≠ n ∧ ∀ fd, fd ≤ fdMax → n ≠ Int.ofNat fd)) → Does opened m (.dup3 t o n fl) .ebadf m
  | dup3Inval {t o n fl old d} : m old d → o = Int.ofNat old → (o = n ∨ (fl = none ∧ ∃ fd, fd ≤ fdMax ∧ n = Int.ofNat fd)) → Does opened m (.dup3 t o n fl) .einval m
  | dupfd {t o mn c n old d} : m old d → o = Int.ofNat old → mn ≤ n → n ≤ fdMax → m.Free n →
      Does opened m (.dupfd t o mn c (some n)) (.fd n) (m.put n ⟨d.file, c⟩)
  | dupfdBad {t o mn c to} : (∀ fd, o = Int.ofNat fd → m.Free fd) → Does opened m (.dupfd t o mn c to) .ebadf m
  | dupfdInval {t o mn c to old d} : m old d → o = Int.ofNat old → (∀ n, mn ≤ n → n ≤ fdMax → ¬ m.Free n) →
      Does opened m (.dupfd t o mn c to) .einval m
  | getfd {t o fd d} : m fd d → o = Int.ofNat fd → Does opened m (.getfd t o) (.flags d.cloexec) m
  | getfdBad {t o} : (∀ fd, o = Int.ofNat fd → m.Free fd) → Does opened m (.getfd t o) .ebadf m
  | setfd {t o fd d c} : m fd d → o = Int.ofNat fd → Does opened m (.setfd t o (some c)) .done (m.flagged (· = fd) c)
  | setfdBad {t o fl} : (∀ fd, o = Int.ofNat fd → m.Free fd) → Does opened m (.setfd t o fl) .ebadf m
  | setfdInval {t o fd d} : m fd d → o = Int.ofNat fd → Does opened m (.setfd t o none) .einval m
  | close {t o fd d} : m fd d → o = Int.ofNat fd → Does opened m (.close t o) .done (m.without (· = fd))
  | closeBad {t o} : (∀ fd, o = Int.ofNat fd → m.Free fd) → Does opened m (.close t o) .ebadf m
  | range {t a b} : a ≤ b → a ≤ fdMax → Does opened m (.closeRange t a b (some false)) .done (m.without fun n => a ≤ n ∧ n ≤ b)
  | rangeFlag {t a b} : a ≤ b → a ≤ fdMax → Does opened m (.closeRange t a b (some true)) .done (m.flagged (fun n => a ≤ n ∧ n ≤ b) true)
  | rangeInval {t a b fl} : b < a ∨ (a ≤ fdMax ∧ fl = none) → Does opened m (.closeRange t a b fl) .einval m
  /-- Unlike Linux: a range of numbers that cannot be in use is accepted whatever the flags. -/
  | rangeAbove {t a b fl} : a ≤ b → fdMax < a → Does opened m (.closeRange t a b fl) .done m
  | block {t o fd d} : m fd d → o = Int.ofNat fd → Does opened m (.block t o) .done m
  | blockBad {t o} : (∀ fd, o = Int.ofNat fd → m.Free fd) → Does opened m (.block t o) .ebadf m
  | unblock {t} : Does opened m (.unblock t) .done m

/-- What the calls do to the file the caller is blocked on: a call that finds that it must wait keeps the file, and gives
it back when it is over; nothing else changes it. -/
inductive Pending (m : Fds) : Act → Ret → Option Nat → Option Nat → Prop
  | block {t o fd d} : m fd d → o = Int.ofNat fd → Pending m (.block t o) .done none (some d.file)
  | unblock {t f} : Pending m (.unblock t) .done (some f) none
  | other {a r x} : (∀ t, a ≠ .unblock t) → (∀ t o, a = .block t o → r = .ebadf) → Pending m a r x x

/-- How many files a call opens. -/
def Act.opens : Act → Nat
  | .create _ _ _ => 1
  | .pair _ _ _ _ _ => 2
  | _ => 0

/-- The calls that change which threads there are or which table a thread has. -/
def Act.moves : Act → Bool
  | .clone _ _ | .exec _ | .exit _ => true
  | _ => false

end Shadow.Files
