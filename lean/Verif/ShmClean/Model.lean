import Verif.ProcMaps.Model
/-!
# Removing shared memory files that nobody uses

Source: `/repo/src/main/utility/shm_cleanup.rs`, called by `/repo/src/main/shadow.rs:79-84, 152-154`, and the names of the files in
`/repo/src/lib/shmem/src/shmalloc_impl.rs:118-140`.

A transition system: any number of processes start, make files, remove their own files and exit while any number of others clean up. A directory is
not read at once: an entry that is there all the time is found, one that comes or goes may or may not be found.

Trusted: the kernel gives a process number to one process at a time in each name space; `/proc` shows the processes of the name space it belongs to.
Simplifications: texts are lists of characters; failures of reading a directory are not modelled (`shm_cleanup` then ends before it removes
anything); the monotonic clock advances between two creations (with equal names, `O_EXCL` ends the process). Files that others put
into the directory do not have names that begin like those of Shadow.
-/
namespace Shadow.ShmClean
open Shadow.ProcMaps

abbrev Name := List Char

/-- shm_cleanup.rs:11. -/
def pref : Name := ['s', 'h', 'a', 'd', 'o', 'w', '_', 's', 'h', 'm', 'e', 'm', 'f', 'i', 'l', 'e']

/-- The decimal digits of a number. -/
def decimalF : Nat → Nat → Name
  | 0, _ => []
  | f + 1, n => (if n < 10 then [] else decimalF f (n / 10)) ++ [Char.ofNat (48 + n % 10)]

def decimal (n : Nat) : Name := decimalF (n + 1) n

/-- `{:09}`: zeros in front. -/
def pad (w : Nat) (s : Name) : Name := List.replicate (w - s.length) '0' ++ s

/-- `format_shmem_name` (shmalloc_impl.rs:118-140) without the directory; the time in nanoseconds. -/
def shmName (t pid : Nat) : Name :=
  pref ++ '_' :: (decimal (t / 1000000000) ++ '.' :: (pad 9 (decimal (t % 1000000000)) ++ '-' :: pad 10 (decimal pid)))

/-- What follows the last `-`: `split('-').next_back()`. -/
def lastPiece : Name → Name → Name
  | cur, [] => cur
  | cur, c :: l => if c = '-' then lastPiece [] l else lastPiece (cur ++ [c]) l

/-- `pid_from_shadow_shm_file_name` (shm_cleanup.rs:57-65). -/
def pidOf (n : Name) : Option Int := parseI 10 (2 ^ 31) (lastPiece [] n)

/-- `get_shadow_shm_file_paths` (shm_cleanup.rs:26-39). -/
def shadowFiles (l : List Name) : List Name := l.filter (fun n => pref.isPrefixOf n)

/-- `get_running_pid_set` (shm_cleanup.rs:42-52). -/
def pidSet (l : List Name) : List Int := l.filterMap (parseI 10 (2 ^ 31))

/-- Whether a file is to be removed (shm_cleanup.rs:92-104). -/
def doomed (pids : List Int) (n : Name) : Bool := match pidOf n with
  | none => false
  | some p => !pids.contains p

/-- A process: `id` tells it from all that had the same number before. -/
structure Proc where
  id : Nat
  pid : Nat
  ns : Nat
deriving DecidableEq, Repr

structure File where
  name : Name
  owner : Option Proc
deriving DecidableEq, Repr

/-- Where a cleanup is in `shm_cleanup` (shm_cleanup.rs:70-113). `must` are the entries that were there when the reading began and still are. -/
inductive Phase where
  | idle
  | listing (must seen : List Name)
  | scanning (paths : List Name) (must : List Nat) (seen : List Name)
  | removing (todo : List Name) (pids : List Int) (count : Nat)
  | done (count : Nat)
deriving DecidableEq, Repr

structure St where
  files : List File
  procs : List Proc
  next : Nat
  time : Nat
  /-- where the cleanups are -/
  cl : Nat → Phase
  /-- the name spaces they run in -/
  ns : Nat → Nat

def St.names (s : St) : List Name := s.files.map (·.name)
def St.pids (s : St) (ns : Nat) : List Nat := (s.procs.filter (fun p => p.ns == ns)).map (·.pid)

def St.set (s : St) (k : Nat) (p : Phase) : St := { s with cl := fun j => if j = k then p else s.cl j }

/-- A file is gone. -/
def Phase.forget (n : Name) : Phase → Phase
  | .listing must seen => .listing (must.filter (fun m => m != n)) seen
  | p => p

/-- A process is gone. -/
def Phase.exit (pid : Nat) : Phase → Phase
  | .scanning paths must seen => .scanning paths (must.filter (fun m => m != pid)) seen
  | p => p

def St.unlink (s : St) (n : Name) : St :=
  { s with files := s.files.filter (fun f => f.name != n), cl := fun k => (s.cl k).forget n }

inductive Act where
  /-- a process starts -/
  | start (pid ns : Nat)
  | exit (p : Proc)
  /-- a process makes a file, `dt` nanoseconds after the last (shmalloc_impl.rs:145-156) -/
  | create (p : Proc) (dt : Nat)
  /-- a process removes a file of its own (shmalloc_impl.rs:269-286) -/
  | own (p : Proc) (n : Name)
  /-- a file of somebody else comes -/
  | touch (n : Name)
  /-- shm_cleanup.rs:72 -/
  | open_ (k : Nat)
  | see (k : Nat) (n : Name)
  /-- shm_cleanup.rs:79 -/
  | openProc (k : Nat)
  | seeProc (k : Nat) (n : Name)
  /-- shm_cleanup.rs:87 -/
  | begin_ (k : Nat)
  /-- one turn of shm_cleanup.rs:90-110; `ok`: the file system lets the file be removed -/
  | take (k : Nat) (ok : Bool)
deriving DecidableEq, Repr

/-- One step, if it is possible. -/
def step (s : St) : Act → Option St
  | .start pid ns =>
    if pid ∈ s.pids ns ∨ 2 ^ 31 ≤ pid then none else some { s with procs := ⟨s.next, pid, ns⟩ :: s.procs, next := s.next + 1 }
  | .exit p =>
    if p ∈ s.procs then
      some { s with procs := s.procs.filter (fun q => q != p), cl := fun k => if s.ns k = p.ns then (s.cl k).exit p.pid else s.cl k }
    else none
  | .create p dt =>
    if p ∈ s.procs ∧ 0 < dt then
      some { s with files := ⟨shmName (s.time + dt) p.pid, some p⟩ :: s.files, time := s.time + dt }
    else none
  | .own p n => if p ∈ s.procs ∧ ⟨n, some p⟩ ∈ s.files then some (s.unlink n) else none
  | .touch n => if n ∈ s.names ∨ pref.isPrefixOf n then none else some { s with files := ⟨n, none⟩ :: s.files }
  | .open_ k => match s.cl k with
    | .idle => some (s.set k (.listing s.names []))
    | .done _ => some (s.set k (.listing s.names []))
    | _ => none
  | .see k n => match s.cl k with
    | .listing must seen => if n ∈ s.names ∧ n ∉ seen then some (s.set k (.listing must (seen ++ [n]))) else none
    | _ => none
  | .openProc k => match s.cl k with
    | .listing must seen => if must.all (fun n => seen.contains n) then some (s.set k (.scanning (shadowFiles seen) (s.pids (s.ns k)) [])) else none
    | _ => none
  | .seeProc k n => match s.cl k with
    | .scanning paths must seen =>
      if (s.pids (s.ns k)).any (fun p => n == decimal p) ∨ parseI 10 (2 ^ 31) n = none then some (s.set k (.scanning paths must (seen ++ [n]))) else none
    | _ => none
  | .begin_ k => match s.cl k with
    | .scanning paths must seen => if must.all (fun p => seen.contains (decimal p)) then some (s.set k (.removing paths (pidSet seen) 0)) else none
    | _ => none
  | .take k ok => match s.cl k with
    | .removing [] _ count => some (s.set k (.done count))
    | .removing (n :: todo) pids count =>
      if doomed pids n ∧ ok = true ∧ n ∈ s.names then some ((s.unlink n).set k (.removing todo pids (count + 1)))
      else some (s.set k (.removing todo pids count))
    | _ => none

def run (s : St) : List Act → Option St
  | [] => some s
  | a :: l => match step s a with
    | some s' => run s' l
    | none => none

def St.init (ns : Nat → Nat) : St := ⟨[], [], 0, 0, fun _ => .idle, ns⟩

end Shadow.ShmClean
