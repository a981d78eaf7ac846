/-!
# Memory of the machine, as reported during a simulation

Source: `meminfo` and `as_base_unit` of `/repo/src/main/core/resource_usage.rs`.

Simplifications: the lines of the file are given (`str::lines`), white space for `trim` is the space and the tab, and the record is a function from the names of its fields in the file.
-/
namespace Shadow.MemInfo

abbrev Str := List Char

def ws (c : Char) : Bool := c == ' ' || c == '\t'

/-- `str::trim`. -/
def trim (s : Str) : Str := ((s.dropWhile ws).reverse.dropWhile ws).reverse

/-- `str::split_once`. -/
def splitOnce (c : Char) : Str → Option (Str × Str)
  | [] => none
  | x :: s => if x = c then some ([], s) else (splitOnce c s).map fun p => (x :: p.1, p.2)

/-- `str::rsplit_once`. -/
def rsplitOnce (c : Char) (s : Str) : Option (Str × Str) := (splitOnce c s.reverse).map fun p => (p.2.reverse, p.1.reverse)

def digit (c : Char) : Option Nat := if '0'.toNat ≤ c.toNat ∧ c.toNat ≤ '9'.toNat then some (c.toNat - '0'.toNat) else none

/-- The digits of a number after `acc`; an error beyond `u64::MAX`. -/
def parseFrom (acc : Nat) : Str → Option Nat
  | [] => some acc
  | c :: s =>
    match digit c with
    | none => none
    | some d => if acc * 10 + d < 2 ^ 64 then parseFrom (acc * 10 + d) s else none

/-- `str::parse::<u64>`. -/
def parse : Str → Option Nat
  | [] => none
  | '+' :: c :: s => parseFrom 0 (c :: s)
  | s => parseFrom 0 s

/-- `as_base_unit` (resource_usage.rs:70-79). -/
def asBaseUnit (val : Nat) (unit : Option Str) : Option Nat :=
  let mul : Option Nat := match unit with
    | none => some 1
    | some u => if u = ['B'] then some 1 else if u = ['k', 'B'] then some 1024 else none
  match mul with
  | none => none
  | some k => if val * k < 2 ^ 64 then some (val * k) else none

/-- One line (resource_usage.rs:28-43). -/
def line (l : Str) : Option (Str × Str × Option Str) :=
  match splitOnce ':' l with
  | none => none
  | some (name, val) =>
    let val := trim val
    match rsplitOnce ' ' val with
    | none => some (trim name, val, none)
    | some (v, u) => some (trim name, v, some u)

/-- The fields that are kept (resource_usage.rs:54-62). -/
def known : List Str := ["MemTotal".toList, "MemFree".toList, "SwapTotal".toList, "SwapFree".toList, "Buffers".toList, "Cached".toList, "SReclaimable".toList, "Shmem".toList]

abbrev Info := Str → Option Nat

/-- The loop (resource_usage.rs:47-64). -/
def step (m : Info) (l : Str) : Info :=
  match line l with
  | none => m
  | some (name, val, unit) =>
    match parse val with
    | none => m
    | some v => if known.contains name then fun n => if n = name then asBaseUnit v unit else m n else m

/-- `meminfo` (resource_usage.rs:23-67). -/
def meminfo (lines : List Str) : Info := lines.foldl step fun _ => none

end Shadow.MemInfo
