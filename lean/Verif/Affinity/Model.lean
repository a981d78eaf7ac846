import Verif.Base.Panic
/-!
# Placement of workers on processors

Source: `/repo/src/main/core/affinity.c`.

With `use_cpu_pinning`, each worker thread and the processes it runs are bound to one logical processor. The processors come from the output of `lscpu`; each worker gets the one that is best with
respect to what the earlier workers got; and `sched_setaffinity` binds threads.

Simplifications: hash tables are functions with default 0 (a key that is missing gives 0, affinity.c:75-79); `int` counters of workers and numbers read by `atoi` do not overflow; running `lscpu` and
allocating memory succeed; the mutex makes calls of `affinity_getGoodWorkerAffinity` happen one after the other. The kernel's `sched_setaffinity` is a parameter.
-/
namespace Shadow.Affinity

open Shadow.Base

/-- `CPUInfo` (affinity.c:34-36). -/
structure Cpu where
  num : Int
  core : Int
  socket : Int
  node : Int
deriving DecidableEq, Repr

/-- `PlatformCPUInfo` (affinity.c:38-46). `allowed` are the bits of `initial_affinity`. -/
structure Pl where
  cpus : List Cpu
  allowed : Nat → Bool
  cpuL : Int → Nat
  coreL : Int → Nat
  sockL : Int → Nat
  nodeL : Int → Nat

/-- The state after `affinity_initPlatformInfo` (affinity.c:338-364, 391-432): no loads. -/
def Pl.init (cpus : List Cpu) (allowed : Nat → Bool) : Pl := ⟨cpus, allowed, fun _ => 0, fun _ => 0, fun _ => 0, fun _ => 0⟩

/-- `_cpuinfo_compare` (affinity.c:90-137). -/
def Pl.compare (s : Pl) (l r : Cpu) : Int :=
  if s.cpuL l.num ≠ s.cpuL r.num then (if s.cpuL l.num < s.cpuL r.num then -1 else 1)
  else if s.coreL l.core ≠ s.coreL r.core then (if s.coreL l.core < s.coreL r.core then -1 else 1)
  else if s.sockL l.socket ≠ s.sockL r.socket then (if s.sockL l.socket < s.sockL r.socket then 1 else -1)
  else if s.nodeL l.node ≠ s.nodeL r.node then (if s.nodeL l.node < s.nodeL r.node then 1 else -1)
  else (if l.num > r.num then 1 else 0) - (if l.num < r.num then 1 else 0)

/-- `CPU_ISSET_S(cpu, setsize, set)` and the bound of `CPU_SET_S` (sched.h of glibc): the number becomes unsigned, and sizes are in bytes. -/
def inSet (cpu : Int) (size : Nat) : Bool := decide (0 ≤ cpu) && decide (cpu.toNat / 8 < size)

/-- `_cpuIdxIsEligible` (affinity.c:139-143): the number of processors is given as the size in bytes. -/
def Pl.eligible (s : Pl) (c : Cpu) : Bool := inSet c.num s.cpus.length && s.allowed c.num.toNat

/-- The loop of `_get_best_cpu` (affinity.c:168-174). -/
def Pl.scan (s : Pl) (cur : Cpu) : List Cpu → Cpu
  | [] => cur
  | r :: rest => s.scan (if s.eligible r && decide (s.compare cur r = 1) then r else cur) rest

/-- `_get_best_cpu` (affinity.c:151-177). -/
def Pl.best (s : Pl) : R Cpu := do
  R.assert (decide (0 < s.cpus.length))
  match s.cpus.dropWhile fun c => !s.eligible c with
  | [] => .panic
  | c :: rest => .ok (s.scan c rest)

/-- `_increment_hash_table_value` (affinity.c:179-183). -/
def inc (f : Int → Nat) (k : Int) : Int → Nat := fun x => if x = k then f k + 1 else f x

/-- `_update_loads` (affinity.c:189-195). -/
def Pl.update (s : Pl) (c : Cpu) : Pl :=
  { s with cpuL := inc s.cpuL c.num, coreL := inc s.coreL c.core, sockL := inc s.sockL c.socket, nodeL := inc s.nodeL c.node }

/-- `affinity_getGoodWorkerAffinity` (affinity.c:197-215) when pinning is enabled; the processor rather than just its number. -/
def Pl.good (s : Pl) : R (Pl × Cpu) := do
  let c ← s.best
  .ok (s.update c, c)

/-- So many workers ask (manager.rs:350-363). The last is first. -/
def Pl.workers (s : Pl) : Nat → R (Pl × List Cpu)
  | 0 => .ok (s, [])
  | n + 1 => do
    let (s, l) ← s.workers n
    let (s, c) ← s.good
    .ok (s, c :: l)

/-! ## Binding a thread -/

/-- `CPU_ALLOC_SIZE` (sched.h of glibc): whole words of 64 bits, in bytes. -/
def allocSize (count : Int) : Nat := (count.toNat + 63) / 64 * 8

/-- `max_cpu_num` (affinity.c:420-425). -/
def maxNum (cpus : List Cpu) : Int := cpus.foldl (fun m c => max m c.num) 0

/-- `affinity_setProcessAffinity` (affinity.c:434-464). `setAffinity` is the kernel: the size in bytes, the set, and whether it succeeds. -/
def setProcess (setAffinity : Nat → (Nat → Bool) → Bool) (enabled : Bool) (max new old : Int) : Int :=
  if enabled = false ∨ new = -1 ∨ new = old then old
  else
    let size := allocSize max
    let set := fun k : Nat => inSet new size && decide (k = new.toNat)
    if setAffinity size set then new else old

/-! ## Reading the output of lscpu -/

def isSpace (c : Char) : Bool := c == ' ' || c == '\t' || c == '\n' || c == '\r' || c.toNat == 11 || c.toNat == 12

def digit (c : Char) : Option Nat := if '0' ≤ c ∧ c ≤ '9' then some (c.toNat - 48) else none

/-- The digits at the beginning. -/
def atoiDigits (acc : Nat) : List Char → Nat
  | [] => acc
  | c :: l => match digit c with | some d => atoiDigits (10 * acc + d) l | none => acc

/-- `atoi` of the C library. -/
def atoi (l : List Char) : Int :=
  match l.dropWhile isSpace with
  | '-' :: l => - (atoiDigits 0 l : Int)
  | '+' :: l => atoiDigits 0 l
  | l => atoiDigits 0 l

/-- `strtok_r` with one delimiter (affinity.c:277, 293): the non-empty pieces. -/
def tokens (cur : List Char) : List Char → List (List Char)
  | [] => if cur = [] then [] else [cur]
  | c :: l => if c = ',' then (if cur = [] then tokens [] l else cur :: tokens [] l) else tokens (cur ++ [c]) l

/-- `_affinity_parseLSCPULine` (affinity.c:271-298): the fields that are there replace those of the structure that is passed, which is that of the line before; the result code is not looked at. -/
def parseLine (line : List Char) (prev : Cpu) : Cpu :=
  match tokens [] line with
  | [] => prev
  | [a] => { prev with num := atoi a }
  | [a, b] => { prev with num := atoi a, core := atoi b }
  | [a, b, c] => { prev with num := atoi a, core := atoi b, socket := atoi c }
  | a :: b :: c :: d :: _ => ⟨atoi a, atoi b, atoi c, atoi d⟩

/-- The loop of `_affinity_parseLSCPUOutput` (affinity.c:304-336) over the lines. -/
def parseLines (prev : Cpu) : List (List Char) → List Cpu
  | [] => []
  | line :: rest => if line.head? = some '#' then parseLines prev rest else let c := parseLine line prev; c :: parseLines c rest

/-- `getline` (affinity.c:319): lines with their ends. -/
def lines (cur : List Char) : List Char → List (List Char)
  | [] => if cur = [] then [] else [cur]
  | c :: l => if c = '\n' then (cur ++ [c]) :: lines [] l else lines (cur ++ [c]) l

/-- `_affinity_parseLSCPUOutput` (affinity.c:304-336). -/
def parse (text : List Char) : List Cpu := parseLines ⟨-1, 0, 0, 0⟩ (lines [] text)

end Shadow.Affinity
