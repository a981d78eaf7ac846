/-!
# Model of the descriptor table

Source: `/repo/src/main/host/descriptor/descriptor_table.rs`.

* `BTreeMap<DescriptorHandle, Descriptor>` is a function to `Option D`; `BTreeSet<u32>` is a
  duplicate-free list of which only membership, least and greatest element are used.
* A descriptor is an arbitrary value of type `D`; reference counting and closing of files is not
  part of the table.
-/
namespace Shadow.Fd

/-- descriptor_table.rs:13, `FD_MAX`. -/
def fdMax : Nat := 2147483647

/-- descriptor_table.rs:17-29. -/
structure Table (D : Type) where
  descs : Nat → Option D
  avail : List Nat
  next : Nat

variable {D : Type}

/-- descriptor_table.rs:32-39, `new`. -/
def Table.new : Table D := ⟨fun _ => none, [], 0⟩

/-- `available_indices.range(m..).next()`. -/
def leastGe (l : List Nat) (m : Nat) : Option Nat := (l.filter (m ≤ ·)).min?

/-- `BTreeMap::insert`. -/
def put (f : Nat → Option D) (i : Nat) (d : Option D) : Nat → Option D :=
  fun j => if j = i then d else f j

/-- descriptor_table.rs:71-85: skip indices that are in use, from `idx`; `fuel` counts the indices
    up to and including `FD_MAX`.  `none` is the error return. -/
def search (descs : Nat → Option D) (idx : Nat) : Nat → Option Nat
  | 0 => none
  | fuel + 1 => match descs idx with
    | some _ => search descs (idx + 1) fuel
    | none => some idx

/-- Result of `add`. -/
inductive AddR (D : Type) where
  | ok (fd : Nat) (t : Table D)
  /-- the table is full; the descriptor is handed back -/
  | err
  /-- descriptor_table.rs:98, assertion -/
  | panic

/-- descriptor_table.rs:96-100: store the descriptor at the chosen index. -/
def store (t : Table D) (d : D) (idx : Nat) : AddR D :=
  match t.descs idx with
  | some _ => .panic
  | none => .ok idx { t with descs := put t.descs idx (some d) }

/-- descriptor_table.rs:43-101, `add`. -/
def Table.add (t : Table D) (d : D) (min : Nat) : AddR D :=
  match leastGe t.avail min with
  | some idx => store { t with avail := t.avail.filter (· ≠ idx) } d idx
  | none =>
    let start := max t.next min
    if start > fdMax then .err
    else match search t.descs start (fdMax + 1 - start) with
      | none => .err
      | some idx => store { t with next := if start = t.next then idx + 1 else t.next } d idx

/-- descriptor_table.rs:105-116, `trim_tail`; `fuel` bounds the number of removals. -/
def trimGo (avail : List Nat) (next : Nat) : Nat → List Nat × Nat
  | 0 => (avail, next)
  | fuel + 1 => match avail.max? with
    | some l => if l + 1 = next then trimGo (avail.filter (· ≠ l)) (next - 1) fuel else (avail, next)
    | none => (avail, next)

def Table.trimTail (t : Table D) : Table D :=
  let r := trimGo t.avail t.next t.avail.length
  { t with avail := r.1, next := r.2 }

/-- descriptor_table.rs:131-149, `set`. -/
def Table.set (t : Table D) (i : Nat) (d : D) : Option D × Table D :=
  (t.descs i, { t with avail := t.avail.filter (· ≠ i), descs := put t.descs i (some d) })

/-- descriptor_table.rs:189-194, `deregister_descriptor`. -/
def Table.deregister (t : Table D) (i : Nat) : Option D × Table D :=
  (t.descs i, Table.trimTail { t with descs := put t.descs i none,
                                      avail := if i ∈ t.avail then t.avail else i :: t.avail })

/-- descriptor_table.rs:197-205, `remove_all`. -/
def Table.removeAll (_ : Table D) : Table D := Table.new

/-- descriptor_table.rs:209-224, `remove_range`, for the fds `lo ..< lo + n`. -/
def Table.removeRange (t : Table D) (lo n : Nat) : Table D :=
  ((List.range' lo n).filter (fun i => (t.descs i).isSome)).foldl (fun t i => (t.deregister i).2) t

/-- The operations of the table. -/
inductive Op (D : Type) where
  | add (d : D) (min : Nat)
  | set (i : Nat) (d : D)
  | close (i : Nat)
  | removeAll
  | removeRange (lo n : Nat)

/-- Apply an operation; a failed or panicking `add` leaves the table unchanged. -/
def Table.apply (t : Table D) : Op D → Table D
  | .add d m => match t.add d m with
    | .ok _ t' => t'
    | _ => t
  | .set i d => (t.set i d).2
  | .close i => (t.deregister i).2
  | .removeAll => t.removeAll
  | .removeRange lo n => t.removeRange lo n

def Table.run (t : Table D) (ops : List (Op D)) : Table D := ops.foldl Table.apply t

end Shadow.Fd
