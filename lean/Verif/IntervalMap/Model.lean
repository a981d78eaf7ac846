import Verif.Base.Panic

/-!
# Model of the interval map

Source: `/repo/src/main/utility/interval_map.rs`. The three parallel vectors are lists; indexing out of bounds is a panic.
`usize` values are natural numbers (the code only compares and copies them).
-/
namespace Shadow.IntervalMap

open Shadow.Base

variable {V : Type}

/-- interval_map.rs:7-45, `Mutation`. -/
inductive Mutation (V : Type) where
  | modifiedBegin (interval : Nat × Nat) (b : Nat)
  | modifiedEnd (interval : Nat × Nat) (e : Nat)
  | split (interval left right : Nat × Nat)
  | removed (interval : Nat × Nat) (v : V)
deriving Repr, DecidableEq

/-- interval_map.rs:85-90. -/
structure IMap (V : Type) where
  starts : List Nat
  ends : List Nat
  vals : List V
deriving Repr, DecidableEq

/-- interval_map.rs:94-100. -/
def IMap.new : IMap V := ⟨[], [], []⟩

/-- `slice::binary_search` on a strictly increasing list, as documented by the standard library: whether the value was found,
    and its index, or else the index where it could be inserted. -/
def search (l : List Nat) (x : Nat) : Bool × Nat :=
  let i := (l.takeWhile (fun y => decide (y < x))).length
  (l[i]? == some x, i)

/-- The entries from an index on, as `ItemIter` yields them (interval_map.rs:47-64). -/
def IMap.items (m : IMap V) (i : Nat) : List ((Nat × Nat) × V) := ((m.starts.drop i).zip (m.ends.drop i)).zip (m.vals.drop i)

/-- interval_map.rs:114-121, `iter_from`. -/
def IMap.iterFrom (m : IMap V) (start : Nat) : R (List ((Nat × Nat) × V)) := do
  let r := search m.starts start
  if r.1 then return m.items r.2
  else if r.2 > 0 then
    let e ← R.unwrap m.ends[r.2 - 1]?
    return m.items (if start < e then r.2 - 1 else r.2)
  else return m.items r.2

/-- What the first part of `splice` found out: the ends, the piece to insert after the value, the mutation. -/
structure Left (V : Type) where
  ends : List Nat
  piece : Option ((Nat × Nat) × V)
  mutation : Option (Mutation V)

/-- interval_map.rs:171-204: an interval before the splice point that overlaps. -/
def IMap.left (m : IMap V) (i s e : Nat) : R (Left V) :=
  if i > 0 then do
    let oe ← R.unwrap m.ends[i - 1]?
    if oe > s then do
      let ob ← R.unwrap m.starts[i - 1]?
      if oe ≤ e then return ⟨m.ends.set (i - 1) s, none, some (.modifiedEnd (ob, oe) s)⟩
      else do
        let v ← R.unwrap m.vals[i - 1]?
        return ⟨m.ends.set (i - 1) s, some ((e, oe), v), some (.split (ob, oe) (ob, s) (e, oe))⟩
    else return ⟨m.ends, none, none⟩
  else return ⟨m.ends, none, none⟩

/-- interval_map.rs:206-212. -/
def spliceEnd (ends : List Nat) (e : Nat) : Nat :=
  let r := search ends e
  if r.1 then r.2 + 1 else r.2

/-- interval_map.rs:214-232: an interval at the end of the splice that overlaps. -/
def right (starts ends : List Nat) (j e : Nat) : R (List Nat × Option (Mutation V)) :=
  if j < starts.length then do
    let ob ← R.unwrap starts[j]?
    if ob < e then do
      let oe ← R.unwrap ends[j]?
      if oe > e then return (starts.set j e, some (.modifiedBegin (ob, oe) e))
      else return (starts, none)
    else return (starts, none)
  else return (starts, none)

/-- `Vec::splice`: the new list and what was taken out. -/
def vecSplice {α : Type} (l : List α) (i j : Nat) (new : List α) : R (List α × List α) := do
  R.assert (decide (i ≤ j) && decide (j ≤ l.length))
  return (l.take i ++ new ++ l.drop j, (l.drop i).take (j - i))

/-- interval_map.rs:140-257, `splice`. -/
def IMap.splice (m : IMap V) (s e : Nat) (val : Option V) : R (IMap V × List (Mutation V)) := do
  R.assert (decide (s < e))
  let i := (search m.starts s).2
  let l ← m.left i s e
  let j := spliceEnd l.ends e
  let r ← right (V := V) m.starts l.ends j e
  let new := (val.map (fun v => ((s, e), v))).toList ++ l.piece.toList
  let a ← vecSplice r.1 i j (new.map (fun x => x.1.1))
  let b ← vecSplice l.ends i j (new.map (fun x => x.1.2))
  let c ← vecSplice m.vals i j (new.map (fun x => x.2))
  R.assert (decide (min a.2.length b.2.length ≤ c.2.length))
  return (⟨a.1, b.1, c.1⟩, l.mutation.toList ++ (((a.2.zip b.2).zip c.2).map (fun x => .removed x.1 x.2)) ++ r.2.toList)

/-- interval_map.rs:129-131, `clear`. -/
def IMap.clear (m : IMap V) (s e : Nat) : R (IMap V × List (Mutation V)) := m.splice s e none

/-- interval_map.rs:135-137, `insert`. -/
def IMap.insert (m : IMap V) (s e : Nat) (v : V) : R (IMap V × List (Mutation V)) := m.splice s e (some v)

/-- interval_map.rs:260-273, `get_index`. -/
def IMap.getIndex (m : IMap V) (x : Nat) : R (Option Nat) :=
  let r := search m.starts x
  if r.1 then return some r.2
  else if r.2 = 0 then return none
  else do
    let e ← R.unwrap m.ends[r.2 - 1]?
    if x < e then return some (r.2 - 1) else return none

/-- interval_map.rs:276-279, `get`. -/
def IMap.get (m : IMap V) (x : Nat) : R (Option ((Nat × Nat) × V)) := do
  match ← m.getIndex x with
  | none => return none
  | some i => do
    let b ← R.unwrap m.starts[i]?
    let e ← R.unwrap m.ends[i]?
    let v ← R.unwrap m.vals[i]?
    return some ((b, e), v)

end Shadow.IntervalMap
