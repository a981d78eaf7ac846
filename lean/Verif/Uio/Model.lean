/-!
# The forms of read and write, and calls that wait

Source: `/repo/src/main/host/syscall/handler/uio.rs`, the read and write calls of `/repo/src/main/host/syscall/handler/unistd.rs`, `OpenFile` of `/repo/src/main/host/descriptor/mod.rs`, and what the kinds of
files do with offsets.

Parameters: what the files do (without an offset), their blocking mode, sockets, the memory of the process, and the C handlers of regular files, which are taken to answer without waiting.

Simplifications: the table of descriptors has one process; whatever else happens is an arbitrary change of the environment. Lengths are natural numbers: the sum of lengths is taken modulo 2^64 as in a release build.
-/
namespace Shadow.Uio

inductive Errno where
  | EBADF | EINVAL | ESPIPE | EWOULDBLOCK | EINTR
  | other (n : Nat)
deriving DecidableEq, Repr

/-- `File` (descriptor/mod.rs:165-171), and `CompatFile::Legacy`. -/
inductive Kind where
  | pipe | eventfd | socket | timerfd | epoll | legacy
deriving DecidableEq, Repr

/-- An answer, of a file or of a handler: `block` is `SyscallError::Blocked`. -/
inductive Res where
  | ok (n : Nat)
  | err (e : Errno)
  | block
deriving DecidableEq, Repr

abbrev Iovs := List (Nat × Nat)

/-- The arguments of the calls: `read`, `pread64`, `readv`, `preadv`, `preadv2`, or the same for writing. Offsets are signed. -/
inductive Form where
  | one (ptr len : Nat)
  | oneAt (ptr len : Nat) (off : Int)
  | vec (ptr : Nat) (cnt : Int)
  | vecAt (ptr : Nat) (cnt : Int) (off : Int)
  | vecAt2 (ptr : Nat) (cnt : Int) (off : Int) (flags : Nat)
deriving DecidableEq, Repr

structure Call where
  write : Bool
  fd : Int
  form : Form
deriving DecidableEq, Repr

structure World (E : Type) where
  kind : Nat → Kind
  nonblock : E → Nat → Bool
  /-- the vectors in memory -/
  iovs : E → Nat → Nat → Except Errno Iovs
  /-- `readv` and `writev` of a pipe, an event counter or a timer, without an offset -/
  file : E → Bool → Nat → Iovs → E × Res
  sock : E → Bool → Nat → Iovs → E × Res
  legacy : E → Nat → Call → E × Res

variable {E : Type}

/-- `File::readv` and `writev`: pipe.rs:124-180, eventfd.rs:75-135, timerfd.rs:133-186, epoll/mod.rs:101-123. -/
def fileIo (W : World E) (e : E) (wr : Bool) (f : Nat) (v : Iovs) (off : Option Int) : E × Res :=
  match W.kind f with
  | .epoll => (e, .err .EINVAL)
  | .timerfd => if wr then (e, .err .EINVAL) else if off.isSome then (e, .err .ESPIPE) else W.file e wr f v
  | _ => if off.isSome then (e, .err .ESPIPE) else W.file e wr f v

def total (v : Iovs) : Nat := (v.map (·.2)).sum % 2 ^ 64

/-- `readv_helper` and `writev_helper` (uio.rs:227-301, 507-577). -/
def helper (W : World E) (e : E) (wr : Bool) (f : Nat) (v : Iovs) (off : Option Int) : E × Res :=
  if W.kind f = .socket then
    if off.isSome then (e, .err .ESPIPE)
    else if wr = false ∧ total v = 0 then (e, .ok 0)
    else W.sock e wr f v
  else
    let nb := W.nonblock e f
    let r := fileIo W e wr f v off
    if r.2 = .err .EWOULDBLOCK ∧ nb = false then (r.1, .block) else r

/-- `read_iovecs` with the conversion of the count (uio.rs:50-56, io.rs `read_iovecs`). -/
def getVec (W : World E) (e : E) (ptr : Nat) (cnt : Int) : Except Errno Iovs :=
  if cnt < 0 then .error .EINVAL
  else if cnt > 1024 then .error .EINVAL
  else W.iovs e ptr cnt.toNat

def withVec (W : World E) (e : E) (wr : Bool) (f : Nat) (ptr : Nat) (cnt : Int) (off : Option Int) : E × Res :=
  match getVec W e ptr cnt with
  | .error x => (e, .err x)
  | .ok v => helper W e wr f v off

/-- The rest of a handler, once the file is known (unistd.rs:188-425, uio.rs:13-225, 303-505). -/
def attempt (W : World E) (e : E) (wr : Bool) (f : Nat) : Form → E × Res
  | .one ptr len => helper W e wr f [(ptr, len)] none
  | .oneAt ptr len off => helper W e wr f [(ptr, len)] (some off)
  | .vec ptr cnt => withVec W e wr f ptr cnt none
  | .vecAt ptr cnt off => if off < 0 then (e, .err .EINVAL) else withVec W e wr f ptr cnt (some off)
  | .vecAt2 ptr cnt off _ =>
    if off = -1 then withVec W e wr f ptr cnt none
    else if off < 0 then (e, .err .EINVAL)
    else withVec W e wr f ptr cnt (some off)

abbrev Table := List (Nat × Nat)

/-- `get_descriptor` (handler/mod.rs:673-684). -/
def lookup (t : Table) (fd : Int) : Option Nat := if fd < 0 then none else List.lookup fd.toNat t

/-- A handler: the file of the call that waited, or else that of the descriptor; and the file that is kept if it is to wait (`set_active_file`). -/
def handle (W : World E) (e : E) (t : Table) (active : Option Nat) (c : Call) : E × Res × Option Nat :=
  match active with
  | some f =>
    let r := attempt W e c.write f c.form
    (r.1, r.2, if r.2 = .block then some f else none)
  | none =>
    match lookup t c.fd with
    | none => (e, .err .EBADF, none)
    | some f =>
      if W.kind f = .legacy then
        let r := W.legacy e f c
        (r.1, r.2, none)
      else
        let r := attempt W e c.write f c.form
        (r.1, r.2, if r.2 = .block then some f else none)

structure State (E : Type) where
  env : E
  table : Table
  /-- the threads that wait, each with its call and its file -/
  waits : List (Nat × Call × Nat)
  /-- the files that were closed, the last one first -/
  closed : List Nat

/-- The files that something refers to: the `Arc` of an `OpenFile` is held by descriptors and by calls that wait. -/
def refs (s : State E) : List Nat := s.table.map (·.2) ++ s.waits.map (·.2.2)

inductive Ev (E : Type) where
  | call (t : Nat) (c : Call)
  /-- the handler of a thread that waits is called again -/
  | resume (t : Nat)
  /-- a thread that waits gets a signal, or ends -/
  | interrupt (t : Nat)
  | close (fd : Nat)
  /-- a descriptor is made to refer to a file: open, dup, dup2, ... -/
  | install (fd f : Nat)
  /-- anything else -/
  | env (e : E)

def setWait (w : List (Nat × Call × Nat)) (t : Nat) (c : Call) (a : Option Nat) : List (Nat × Call × Nat) :=
  let w := w.filter (·.1 ≠ t)
  match a with
  | none => w
  | some f => (t, c, f) :: w

/-- What an event does, before files without references are closed, and the answer. -/
def act (W : World E) (s : State E) : Ev E → State E × Option Res
  | .call t c =>
    let r := handle W s.env s.table none c
    ({ s with env := r.1, waits := setWait s.waits t c r.2.2 }, some r.2.1)
  | .resume t =>
    match List.lookup t s.waits with
    | none => (s, none)
    | some (c, f) =>
      let r := handle W s.env s.table (some f) c
      ({ s with env := r.1, waits := setWait s.waits t c r.2.2 }, some r.2.1)
  | .interrupt t =>
    match List.lookup t s.waits with
    | none => (s, none)
    | some _ => ({ s with waits := s.waits.filter (·.1 ≠ t) }, some (.err .EINTR))
  | .close fd => ({ s with table := s.table.filter (·.1 ≠ fd) }, none)
  | .install fd f => ({ s with table := (fd, f) :: s.table.filter (·.1 ≠ fd) }, none)
  | .env e => ({ s with env := e }, none)

/-- `OpenFile::close` and drop (descriptor/mod.rs:437-480): a file is closed with its last reference. -/
def step (W : World E) (s : State E) (ev : Ev E) : State E × Option Res :=
  let r := act W s ev
  let gone := ((refs s).eraseDups).filter (fun f => !(refs r.1).contains f)
  ({ r.1 with closed := gone ++ s.closed }, r.2)

def run (W : World E) (s : State E) : List (Ev E) → State E
  | [] => s
  | ev :: l => run W (step W s ev).1 l

end Shadow.Uio
