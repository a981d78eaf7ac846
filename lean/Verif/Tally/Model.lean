import Verif.Base.Panic
/-!
# The record of lost packets of the C TCP stack

Model of `/repo/src/main/host/descriptor/tcp_retransmit_tally.cc`.  The tally keeps four lists of
half-open ranges of packet sequence numbers: those marked lost, those the peer acknowledged
selectively, those already sent again, and the difference of the three, which `_tcp_flush` sends
again.

Simplifications, valid for the whole file: sequence numbers are integers (`SeqNum` is `int64_t` and
is only filled from `uint32_t` values, so no operation on it can overflow); the arguments of type
`uint32_t` are natural numbers, so the wrap of `end += 1` at `2^32` is not modelled (the C code
documents that it expects fewer than `2^32` packets per socket); a failed `assert` is a panic;
pointers and iterators are positions in a list.
-/

namespace Shadow.Tally
open Shadow.Base

/-- `using SeqRange = std::pair<SeqNum, SeqNum>` (tcp_retransmit_tally.h:55). -/
structure Rng where
  lo : Int
  hi : Int
deriving DecidableEq, Repr

/-- `still_sorted_` (tcp_retransmit_tally.cc:11-22): the last range itself is not looked at. -/
def stillSorted : List Rng → Bool
  | [] => true
  | [_] => true
  | a :: b :: rest => decide (a.lo < a.hi) && decide (a.hi < b.lo) && stillSorted (b :: rest)

/-- `range_contains` (tcp_retransmit_tally.cc:36-38). -/
def Rng.contains (r : Rng) (v : Int) : Bool := decide (v ≥ r.lo) && decide (v < r.hi)

/-- `range_overlap` (tcp_retransmit_tally.cc:40-42). -/
def Rng.overlap (l r : Rng) : Bool := decide (l.lo < r.hi) && decide (r.lo < l.hi)

/-- `range_adj` (tcp_retransmit_tally.cc:44-46). -/
def Rng.adj (l r : Rng) : Bool := l.hi == r.lo || r.hi == l.lo

/-- `ranges_contains` (tcp_retransmit_tally.cc:48-56). -/
def rangesContains (rs : List Rng) (v : Int) : Bool := rs.any (·.contains v)

/-- The loop of `ranges_mergable` (tcp_retransmit_tally.cc:58-78): `i` is the position of `itr`,
`f` is `mergable.first` (`none` is `ranges.end()`).  The result is the pair `mergable`. -/
def mergable (v : Rng) : List Rng → Nat → Option Nat → Option Nat × Nat
  | [], i, f => (f, i)
  | r :: rs, i, f =>
    if v.hi ≥ r.lo then
      mergable v rs (i + 1) (if f.isNone && (r.overlap v || r.adj v) then some i else f)
    else (f, i)

/-- `range_merge` (tcp_retransmit_tally.cc:80-83). -/
def Rng.merge (x y : Rng) : Rng := ⟨min x.lo y.lo, max x.hi y.hi⟩

/-- `ranges_insert` (tcp_retransmit_tally.cc:85-102), without its two assertions. -/
def insertCore (rs : List Rng) (v : Rng) : List Rng :=
  match mergable v rs 0 none with
  | (none, j) => rs.take j ++ v :: rs.drop j
  | (some i, j) =>
    rs.take i ++
      ((rs.drop (i + 1)).take (j - (i + 1))).foldl Rng.merge ((rs.getD i v).merge v) :: rs.drop j

/-- `ranges_insert` (tcp_retransmit_tally.cc:85-102). -/
def insert (rs : List Rng) (v : Rng) : R (List Rng) := do
  R.assert (stillSorted rs)
  let rs := insertCore rs v
  R.assert (stillSorted rs)
  pure rs

/-- `range_subtract` (tcp_retransmit_tally.cc:104-125); its assertion is proved by
`subOne_sorted`. -/
def subOne (l r : Rng) : List Rng :=
  if l.overlap r then
    (if l.lo < r.lo then [⟨l.lo, r.lo⟩] else []) ++ (if r.hi < l.hi then [⟨r.hi, l.hi⟩] else [])
  else [l]

/-- The loop of `ranges_subtract` and what follows it (tcp_retransmit_tally.cc:136-164).  `cur` is
`lhs_to_consider`, `ls` is what follows position `idx` in `lhs`, `rs` is what follows `jtr`
(inclusive) in `rhs`.  Each branch of the loop returns to its head, so the recursion is bounded by
a number of rounds; `subGo_spec` proves that the bound given by `subtractCore` is never reached. -/
def subGo : Nat → Rng → List Rng → List Rng → List Rng
  | 0, _, _, _ => []
  | _ + 1, cur, ls, [] => cur :: ls
  | n + 1, cur, ls, j :: rs =>
    if j.hi ≤ cur.lo then subGo n cur ls rs
    else if cur.hi ≤ j.lo then
      cur :: (match ls with
        | [] => []
        | l :: ls => subGo n l ls (j :: rs))
    else
      match subOne cur j with
      | [] => (match ls with
        | [] => []
        | l :: ls => subGo n l ls (j :: rs))
      | [b] => subGo n b ls (j :: rs)
      | a :: b :: _ => a :: subGo n b ls (j :: rs)

/-- `ranges_subtract` (tcp_retransmit_tally.cc:127-173), without its final assertions. -/
def subtractCore (lhs rhs : List Rng) : List Rng :=
  match rhs, lhs with
  | [], _ => lhs
  | _, [] => []
  | _, l :: ls => subGo (2 * (lhs.length + rhs.length) + 2) l ls rhs

/-- `ranges_subtract` (tcp_retransmit_tally.cc:127-173). -/
def subtract (lhs rhs : List Rng) : R (List Rng) := do
  let result := subtractCore lhs rhs
  R.assert (result.all fun r => decide (r.lo < r.hi))
  R.assert (stillSorted result)
  pure result

/-- `struct RetransmitTally` (tcp_retransmit_tally.h:59-76). -/
structure Tally where
  lastAck : Int
  dups : Nat
  marked : List Rng
  sacked : List Rng
  retx : List Rng
  lost : List Rng
deriving DecidableEq, Repr

/-- `RetransmitTally::RetransmitTally` (tcp_retransmit_tally.cc:276-282). -/
def new : Tally := ⟨-1, 0, [], [], [], []⟩

/-- `RetransmitTally::compute_lost` (tcp_retransmit_tally.cc:295-298). -/
def Tally.computeLost (t : Tally) : R Tally := do
  let l ← subtract t.marked t.sacked
  let l ← subtract l t.retx
  pure { t with lost := l }

/-- `RetransmitTally::tidy_ranges` (tcp_retransmit_tally.cc:300-318). -/
def tidy (ack : Int) (rs : List Rng) : R (List Rng) := do
  R.assert (stillSorted rs)
  let rs := match rs with
    | [] => []
    | f :: rest =>
      if ack ≥ f.lo ∧ ack < f.hi - 1 then ⟨ack, f.hi⟩ :: rest
      else if ack ≥ f.hi - 1 then (f :: rest).filter (fun r => !decide (ack ≥ r.hi))
      else f :: rest
  R.assert (stillSorted rs)
  pure rs

/-- The first half of `retransmit_tally_update` (tcp_retransmit_tally.cc:196-204). -/
def Tally.updateAck (t : Tally) (ack : Nat) (isDup : Bool) : R Tally :=
  if isDup && ((ack : Int) == t.lastAck) then pure { t with dups := t.dups + 1 }
  else if (ack : Int) > t.lastAck then do
    let m ← tidy ack t.marked
    let s ← tidy ack t.sacked
    let x ← tidy ack t.retx
    pure { t with lastAck := ack, dups := 0, marked := m, sacked := s, retx := x }
  else pure t

/-- `retransmit_tally_update` (tcp_retransmit_tally.cc:190-219).  The second result is whether
`TCP_PF_DATA_LOST_` is returned. -/
def Tally.update (t : Tally) (ack : Nat) (isDup : Bool) : R (Tally × Bool) := do
  let t ← t.updateAck ack isDup
  if t.dups ≥ 3 && !rangesContains t.retx t.lastAck then do
    let m ← insert t.marked ⟨t.lastAck, t.lastAck + 1⟩
    let t ← { t with marked := m }.computeLost
    pure (t, !t.lost.isEmpty)
  else pure (t, false)

/-- `retransmit_tally_mark_sacked` (tcp_retransmit_tally.cc:221-231). -/
def Tally.markSacked (t : Tally) : List (Nat × Nat) → R Tally
  | [] => pure t
  | (a, b) :: rest => do
    R.assert (decide (b > 0))
    let s ← insert t.sacked ⟨a, b⟩
    Tally.markSacked { t with sacked := s } rest

/-- `retransmit_tally_mark_lost` (tcp_retransmit_tally.cc:233-241). -/
def Tally.markLost (t : Tally) (b e : Nat) : R Tally := do
  if b = e + 1 then pure t
  else
    let e := if b = e then e + 1 else e
    R.assert (decide (b < e))
    let m ← insert t.marked ⟨b, e⟩
    { t with marked := m }.computeLost

/-- `retransmit_tally_mark_retransmitted` (tcp_retransmit_tally.cc:243-249). -/
def Tally.markRetx (t : Tally) (b e : Int) : R Tally := do
  let x ← insert t.retx ⟨b, e⟩
  { t with retx := x }.computeLost

/-- `retransmit_tally_clear_retransmitted` (tcp_retransmit_tally.cc:251-254). -/
def Tally.clearRetx (t : Tally) : Tally := { t with retx := [] }

/-- A call into the tally. -/
inductive Call where
  | update (ack : Nat) (isDup : Bool)
  | sacked (blocks : List (Nat × Nat))
  | lost (b e : Nat)
  | retx (b e : Nat)
  | clear
deriving DecidableEq, Repr

/-- The dispatch of one call; the flag is the result of `retransmit_tally_update`. -/
def Tally.call (t : Tally) : Call → R (Tally × Bool)
  | .update a d => t.update a d
  | .sacked bs => do let t ← t.markSacked bs; pure (t, false)
  | .lost b e => do let t ← t.markLost b e; pure (t, false)
  | .retx b e => do let t ← t.markRetx b e; pure (t, false)
  | .clear => pure (t.clearRetx, false)

/-- A sequence of calls on one tally; the flag of the last call. -/
def run (t : Tally) : List Call → R (Tally × Bool)
  | [] => pure (t, false)
  | [c] => t.call c
  | c :: cs => do let r ← t.call c; run r.1 cs

end Shadow.Tally
