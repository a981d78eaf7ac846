import Verif.Base.Panic
import Verif.Base.Count

/-!
# `Root`, `RootedRc`, `RootedRcWeak` (src/lib/shadow-shim-helper-rs/src/rootedcell)

Reference counts that are not atomic: every operation that touches them takes a reference to the `Root` of the object.  A `Root` is not
`Sync`, so these operations are never concurrent, and the model is a sequence of operations on any number of objects.  Reading the value
through a strong reference needs no root and touches no count.

An `R.panic` of the model is undefined behaviour (an access to memory that was freed) or a failed `unwrap`.  The panics that are meant to
be there (a wrong root, an overflow in a debug build) are events, because a panic that is caught leaves the objects as they are.

Simplification: values are numbers (a value that contains references is a value whose owner drops them by further operations).
-/
namespace Shadow.Rooted

open Shadow.Base

/-- mod.rs:45-79, `Tag::new`, the part that is counted: `fetch_add` on a `u32`, which wraps, and the check of line 72.  The result is the
local id and the next value of the counter. -/
def tagNew (next : Nat) : R Nat × Nat := (if next ≠ 2 ^ 32 - 1 then .ok next else .panic, (next + 1) % 2 ^ 32)

/-- `n` calls of `Tag::new`, one after the other; a panic ends them. -/
def tagsFrom (next : Nat) : Nat → R (List Nat)
  | 0 => .ok []
  | n + 1 => do
    let t ← (tagNew next).1
    let l ← tagsFrom (tagNew next).2 n
    return t :: l

/-- rc.rs:14-18, `RootedRcInternal`. -/
structure Box where
  val : Option Nat
  strong : Nat
  weak : Nat
deriving DecidableEq, Repr

/-- rc.rs:46-49, `RefType`. -/
inductive Kind where
  | strong | weak
deriving DecidableEq, Repr

/-- rc.rs:52-55, `RootedRcCommon`, in a `RootedRc` or a `RootedRcWeak`. -/
structure Handle where
  kind : Kind
  tag : Nat
  box : Nat
  /-- It was dropped without `explicit_drop`. -/
  lost : Bool
deriving DecidableEq, Repr

structure St where
  /-- `none` is memory that was freed. -/
  boxes : List (Option Box)
  /-- `none` is a handle that was explicitly dropped. -/
  hs : List (Option Handle)
deriving DecidableEq, Repr

/-- What the owner of the handles observes, and what happens to the memory. -/
inductive Ev where
  /-- An object is made with a value, for a root, with one strong reference. -/
  | made (b v root : Nat)
  /-- A new reference of this kind. -/
  | ref (b : Nat) (k : Kind) (root : Nat)
  /-- `upgrade` returns `None`. -/
  | noUpgrade (b root : Nat)
  /-- A reference is explicitly dropped: the value that is handed out, and whether the memory is freed. -/
  | dropped (b : Nat) (k : Kind) (root : Nat) (out : Option Nat) (freed : Bool)
  /-- A reference is dropped without `explicit_drop`; in a debug build this also panics. -/
  | lost (b : Nat) (k : Kind)
  | read (b v : Nat)
  /-- Panic: the wrong root. -/
  | wrongRoot (b root : Nat)
  /-- Panic: overflow of a count. -/
  | overflow (b : Nat) (k : Kind)
deriving DecidableEq, Repr

inductive Act where
  | new (root v : Nat)
  | clone (i root : Nat)
  | downgrade (i root : Nat)
  | upgrade (i root : Nat)
  | drop (i root : Nat)
  | lose (i : Nat)
  | read (i : Nat)
deriving DecidableEq, Repr

def St.init : St := ⟨[], []⟩

/-- rc.rs:19-27 and 58-65, `new`. -/
def St.new (s : St) (root v : Nat) : St × List Ev :=
  (⟨s.boxes ++ [some ⟨some v, 1, 0⟩], s.hs ++ [some ⟨.strong, root, s.boxes.length, false⟩]⟩, [.made s.boxes.length v root])

/-- `+ 1` on a `u32`: `none` is the panic of a debug build, a release build wraps. -/
def inc (debug : Bool) (n : Nat) : Option Nat := if n + 1 < 2 ^ 32 then some (n + 1) else if debug then none else some 0

/-- `- 1` on a `u32`. -/
def dec (debug : Bool) (n : Nat) : R Nat := if 0 < n then .ok (n - 1) else if debug then .panic else .ok (2 ^ 32 - 1)

def Box.count (bx : Box) : Kind → Nat
  | .strong => bx.strong
  | .weak => bx.weak

def Box.setCount (bx : Box) : Kind → Nat → Box
  | .strong, n => { bx with strong := n }
  | .weak, n => { bx with weak := n }

/-- rc.rs:69-80, `borrow_internal`, after the check of the root: the memory must not have been freed. -/
def St.deref (s : St) (b : Nat) : R Box := do
  let o ← R.unwrap s.boxes[b]?
  R.unwrap o

/-- rc.rs:120-130, `clone`: a new reference of kind `k` to the object of `h`. -/
def St.cloneAs (s : St) (debug : Bool) (h : Handle) (root : Nat) (k : Kind) : R (St × List Ev) :=
  if root ≠ h.tag then .ok (s, [.wrongRoot h.box root])
  else do
    let bx ← s.deref h.box
    match inc debug (bx.count k) with
    | none => return (s, [.overflow h.box k])
    | some n => return (⟨s.boxes.set h.box (some (bx.setCount k n)), s.hs ++ [some { h with kind := k, lost := false }]⟩, [.ref h.box k root])

/-- rc.rs:431-441, `upgrade`. -/
def St.upgrade (s : St) (debug : Bool) (h : Handle) (root : Nat) : R (St × List Ev) :=
  if root ≠ h.tag then .ok (s, [.wrongRoot h.box root])
  else do
    let bx ← s.deref h.box
    if bx.strong = 0 then return (s, [.noUpgrade h.box root])
    else s.cloneAs debug h root .strong

/-- rc.rs:90-115: the value that is handed out, and what is left of the memory. -/
def Box.settle (bx : Box) : Option Nat × Option Box :=
  (if bx.strong = 0 then bx.val else none,
   if bx.strong = 0 ∧ bx.weak = 0 then none else if bx.strong = 0 then some { bx with val := none } else some bx)

/-- rc.rs:83-118, `safely_drop`, called by `into_inner` (218-220), `explicit_drop` (240-250 and 463-468) and `explicit_drop_recursive`
(224-233).  With the wrong root it panics, and the reference, which it has consumed, is dropped without `explicit_drop`. -/
def St.safelyDrop (s : St) (debug : Bool) (i : Nat) (h : Handle) (root : Nat) : R (St × List Ev) :=
  if root ≠ h.tag then .ok ({ s with hs := s.hs.set i (some { h with lost := true }) }, [.wrongRoot h.box root, .lost h.box h.kind])
  else do
    let bx ← s.deref h.box
    let n ← dec debug (bx.count h.kind)
    let (out, left) := (bx.setCount h.kind n).settle
    return (⟨s.boxes.set h.box left, s.hs.set i none⟩, [.dropped h.box h.kind root out left.isNone])

/-- rc.rs:253-273, `deref`: both `unwrap`s. -/
def St.read (s : St) (h : Handle) : R (St × List Ev) := do
  let bx ← s.deref h.box
  let v ← R.unwrap bx.val
  return (s, [.read h.box v])

/-- The handle `i`, if it is there. -/
def St.handle (s : St) (i : Nat) : Option Handle :=
  match s.hs[i]? with
  | some (some h) => if h.lost then none else some h
  | _ => none

/-- One operation; `none` is "not enabled": there is no such handle. -/
def step (debug : Bool) (s : St) : Act → Option (R (St × List Ev))
  | .new root v => some (.ok (s.new root v))
  | .clone i root => (s.handle i).map (fun h => s.cloneAs debug h root h.kind)
  | .downgrade i root => match s.handle i with
    | some h => if h.kind = .strong then some (s.cloneAs debug h root .weak) else none
    | none => none
  | .upgrade i root => match s.handle i with
    | some h => if h.kind = .weak then some (s.upgrade debug h root) else none
    | none => none
  | .drop i root => (s.handle i).map (fun h => s.safelyDrop debug i h root)
  -- rc.rs:142-168, `drop`: the counts are not touched.
  | .lose i => (s.handle i).map (fun h => .ok ({ s with hs := s.hs.set i (some { h with lost := true }) }, [.lost h.box h.kind]))
  | .read i => match s.handle i with
    | some h => if h.kind = .strong then some (s.read h) else none
    | none => none

/-- In a release build the counts must not overflow: there are fewer than 2³² references. -/
def allowed (debug : Bool) (s : St) : Prop := debug = true ∨ s.hs.countP (fun o => o.isSome) + 1 < 2 ^ 32

/-- The states that can be reached, with everything observed, in order. -/
inductive Run (debug : Bool) : St → List Ev → Prop
  | init : Run debug .init []
  | step {s s' : St} {tr e : List Ev} {a : Act} : Run debug s tr → allowed debug s → step debug s a = some (.ok (s', e)) → Run debug s' (tr ++ e)

end Shadow.Rooted
