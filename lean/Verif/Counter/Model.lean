/-!
# Model of the counters and of the merging of worker statistics

Source: `/repo/src/main/utility/counter.rs` and `/repo/src/main/core/sim_stats.rs`.

* The `HashMap` is a function to `Option`; iterating over it yields its entries in an arbitrary order,
  which is an input (`List (K × Int)`).
* Counts are unbounded integers; the overflow of `i64` is not modelled.
* `sim_stats.rs` keeps three counters with the same treatment; one is modelled.  The locks make a merge
  atomic.
-/
namespace Shadow.Counter

variable {K : Type} [DecidableEq K]

/-- counter.rs:23-26. -/
abbrev Counter (K : Type) := K → Option Int

/-- counter.rs:38-42, `new`. -/
def new : Counter K := fun _ => none

/-- counter.rs:29-33. -/
inductive Opn where
  | add
  | set
  | sub
deriving Repr, DecidableEq

def put (c : Counter K) (k : K) (v : Option Int) : Counter K := fun j => if j = k then v else c j

/-- counter.rs:100-113: the existing-key branch of `operate`, with current value `val`. -/
def operateSome (c : Counter K) (k : K) (val : Int) (op : Opn) (value : Int) : Int × Counter K :=
  let v := match op with
    | .add => val + value
    | .sub => val - value
    | .set => value
  if v = 0 then (0, put c k none) else (v, put c k (some v))

/-- counter.rs:97-123, `operate`: the returned value and the new counter. -/
def operate (c : Counter K) (k : K) (op : Opn) (value : Int) : Int × Counter K :=
  match c k with
  | some val => operateSome c k val op value
  | none => operateSome (put c k (some 0)) k 0 op value

/-- counter.rs:76-81, `get_value`. -/
def getValue (c : Counter K) (k : K) : Int := match c k with
  | some v => v
  | none => 0

/-- counter.rs:84-88, `add_counter`; `items` are the entries of `other` in iteration order. -/
def addCounter (c : Counter K) (items : List (K × Int)) : Counter K :=
  items.foldl (fun c kv => (operate c kv.1 .add kv.2).2) c

/-- counter.rs:91-95, `sub_counter`. -/
def subCounter (c : Counter K) (items : List (K × Int)) : Counter K :=
  items.foldl (fun c kv => (operate c kv.1 .sub kv.2).2) c

/-- counter.rs:127-147, `sorted_for_display`: by value, largest first, then by key. -/
def displayLe (le : K → K → Bool) (a b : K × Int) : Bool :=
  decide (b.2 < a.2) || (decide (a.2 = b.2) && le a.1 b.1)

def sortedForDisplay (le : K → K → Bool) (items : List (K × Int)) : List (K × Int) :=
  items.mergeSort (displayLe le)

/-! ## Workers and the shared statistics -/

/-- Worker-local counters and the shared one (sim_stats.rs:9-14, 35-40). -/
structure Stats (K : Type) where
  shared : Counter K
  locals : Nat → Counter K

/-- `count`: a worker adds to its local counter; `flush`: sim_stats.rs:51-68,
    `add_from_local_stats`, with the iteration order `items` of the local counter. -/
inductive Act (K : Type) where
  | count (w : Nat) (k : K) (v : Int)
  | flush (w : Nat) (items : List (K × Int))

def Stats.new : Stats K := ⟨Counter.new, fun _ => Counter.new⟩

def Stats.step (s : Stats K) : Act K → Stats K
  | .count w k v =>
    { s with locals := fun x => if x = w then (operate (s.locals w) k .add v).2 else s.locals x }
  | .flush w items =>
    ⟨addCounter s.shared items, fun x => if x = w then Counter.new else s.locals x⟩

end Shadow.Counter
