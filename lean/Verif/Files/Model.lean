import Verif.Base.Panic
import Verif.Base.Count
/-!
# Descriptors, descriptor tables and open files

Source: `src/main/host/descriptor/mod.rs` 380-560 (`OpenFile`, `OpenFileInner`, `Descriptor`),
`src/main/host/descriptor/descriptor_table.rs`, `src/main/host/syscall/handler/unistd.rs` 30-180 and 448-534,
`src/main/host/syscall/handler/fcntl.rs` 140-180, `src/main/host/syscall/handler/close_range.rs`,
`src/main/host/syscall/handler/clone.rs` 103-122, `src/main/host/thread.rs` 128-171, 515-556, 600-620,
`src/main/host/managed_thread.rs` 281-284, `src/main/host/syscall/condition.rs` 73-76.

An open file is what Linux calls a file description.  Its references are counted by an `Arc`.  A descriptor holds one
reference.  A call that blocks on a file holds one more in its syscall condition, so that the file stays open although
the program may close the descriptor meanwhile.

Which number `register_descriptor` gives to a new descriptor is settled by property C21 (the lowest free one).  Here the
number is part of the action, and the only thing required of it is that it is free and not below the asked minimum.
Legacy files (C code) are not modelled.  The order in which a batch of descriptors is closed is not modelled, because
only the numbers of references and of closings are of interest.
-/
namespace Shadow.Files
open Shadow.Base

/-- The open file behind an `Arc<OpenFileInner>`: the strong count of the `Arc`, and how often `close` has been called on
the file inside (descriptor/mod.rs 401-475). -/
structure Open where
  count : Nat
  closes : Nat
deriving DecidableEq, Repr

/-- `Descriptor` (descriptor/mod.rs 479-489): the open file, and the only descriptor flag, `FD_CLOEXEC`. -/
structure Desc where
  file : Nat
  cloexec : Bool
deriving DecidableEq, Repr

/-- `RootedRc<RootedRefCell<DescriptorTable>>`: the number of threads that hold the table, and the descriptors
(descriptor_table.rs 55-72; the `BTreeMap` is a list of pairs, in no particular order). -/
structure Table where
  rc : Nat
  descs : List (Nat × Desc)
deriving DecidableEq, Repr

/-- What matters of a `Thread`: its table (thread.rs 50) and the file of the blocked call, held in the syscall condition
(syscall/condition.rs 73-76). -/
structure Thread where
  table : Nat
  active : Option Nat
deriving DecidableEq, Repr

/-- Everything on a host that can hold a reference to an open file.  A dead thread or a freed table is `none`. -/
structure World where
  files : List Open
  tables : List (Option Table)
  threads : List (Option Thread)
deriving DecidableEq, Repr

/-- What a call returns. -/
inductive Ret where
  | fd (n : Nat) | done | flags (cloexec : Bool) | ebadf | einval | enfile | efault
deriving DecidableEq, Repr

/-- `FD_MAX` (descriptor_table.rs 15): the largest `c_int`. -/
def fdMax : Nat := 2147483647

/-- `DescriptorHandle::try_from(c_int)` (descriptor_table.rs 325-375): a handle is a number from 0 to `FD_MAX`. -/
def handle (fd : Int) : Option Nat := if 0 ≤ fd ∧ fd.toNat ≤ fdMax then some fd.toNat else none

/-- `DescriptorTable::get` (descriptor_table.rs 205-208). -/
def look (l : List (Nat × Desc)) (fd : Nat) : Option Desc := (l.find? (·.1 == fd)).map (·.2)

/-- `BTreeMap::remove`. -/
def drop (l : List (Nat × Desc)) (fd : Nat) : List (Nat × Desc) := l.filter (·.1 != fd)

/-- `OpenFile::new` (descriptor/mod.rs 402-425). -/
def World.newFile (w : World) : World × Nat := ({ w with files := w.files ++ [⟨1, 0⟩] }, w.files.length)

/-- `Arc::clone` on the open file, from `Descriptor::dup` (descriptor/mod.rs 530-539) or `OpenFile::clone`. -/
def World.retain (w : World) (f : Nat) : World :=
  match w.files[f]? with
  | none => w
  | some x => { w with files := w.files.set f { x with count := x.count + 1 } }

/-- `OpenFile::close` or the drop of an `OpenFile` (descriptor/mod.rs 431-440, 461-475): one reference goes; if it was the
last, the file is closed.  No reference to give back would be a double free. -/
def World.release (w : World) (f : Nat) : R World :=
  match w.files[f]? with
  | none => .panic
  | some x =>
    if x.count = 0 then .panic
    else if x.count = 1 then .ok { w with files := w.files.set f { count := 0, closes := x.closes + 1 } }
    else .ok { w with files := w.files.set f { x with count := x.count - 1 } }

/-- Close several descriptors, one after the other. -/
def World.releaseAll (w : World) : List Nat → R World
  | [] => .ok w
  | f :: fs => do
    let w ← w.release f
    w.releaseAll fs

/-- Clone several descriptors, one after the other (`#[derive(Clone)]` of `DescriptorTable`, descriptor_table.rs 54). -/
def World.retainAll (w : World) (fs : List Nat) : World := fs.foldl World.retain w

/-- The files of some descriptors. -/
def filesOf (l : List (Nat × Desc)) : List Nat := l.map (·.2.file)

/-- Write a table back. -/
def World.setTable (w : World) (k : Nat) (t : Option Table) : World := { w with tables := w.tables.set k t }

/-- Write a thread back. -/
def World.setThread (w : World) (t : Nat) (th : Option Thread) : World := { w with threads := w.threads.set t th }

/-- `RootedRc::new` on a table. -/
def World.addTable (w : World) (tb : Table) : World := { w with tables := w.tables ++ [some tb] }

/-- The table of a thread: `descriptor_table_borrow` (thread.rs 289-310). -/
def World.tableOf (w : World) (th : Thread) : R Table :=
  match w.tables[th.table]? with
  | some (some tb) => .ok tb
  | _ => .panic

/-- `explicit_drop_recursive` on the thread's reference to its table: the last one closes all the descriptors
(thread.rs 617, descriptor_table.rs 268-283). -/
def World.leaveTable (w : World) (k : Nat) (tb : Table) : R World :=
  if tb.rc = 0 then .panic
  else if tb.rc = 1 then (w.setTable k none).releaseAll (filesOf tb.descs)
  else .ok (w.setTable k (some { tb with rc := tb.rc - 1 }))

/-- Drop the syscall condition of a thread (thread.rs 275-285, 166-170, 602-605). -/
def World.leaveCall (w : World) (t : Nat) (th : Thread) : R World :=
  match th.active with
  | none => .ok w
  | some f => (w.setThread t (some { th with active := none })).release f

/-- What can happen.  `to` is the number picked for a new descriptor. -/
inductive Act where
  /-- A call that opens a file (`socket`, `eventfd`, `accept`, ...): `to = none` when the table is full. -/
  | create (t : Nat) (cloexec : Bool) (to : Option Nat)
  /-- `pipe`, `pipe2`, `socketpair`; `fault` when the two numbers cannot be written to the program's memory. -/
  | pair (t : Nat) (cloexec : Bool) (to₁ to₂ : Nat) (fault : Bool)
  | dup (t : Nat) (fd : Int) (to : Option Nat)
  | dup2 (t : Nat) (old new : Int)
  /-- `flags`: `none` for anything but `0` and `O_CLOEXEC`. -/
  | dup3 (t : Nat) (old new : Int) (flags : Option Bool)
  /-- `fcntl` with `F_DUPFD` or `F_DUPFD_CLOEXEC`. -/
  | dupfd (t : Nat) (fd : Int) (min : Nat) (cloexec : Bool) (to : Option Nat)
  | getfd (t : Nat) (fd : Int)
  /-- `fcntl` with `F_SETFD`: `flags` is `none` for unknown bits. -/
  | setfd (t : Nat) (fd : Int) (flags : Option Bool)
  | close (t : Nat) (fd : Int)
  /-- `close_range`: `flags` is `none` for unknown bits or `CLOSE_RANGE_UNSHARE`, else whether `CLOSE_RANGE_CLOEXEC` is given. -/
  | closeRange (t : Nat) (first last : Nat) (flags : Option Bool)
  /-- A call on a descriptor finds that it must wait. -/
  | block (t : Nat) (fd : Int)
  /-- The call that waited is over. -/
  | unblock (t : Nat)
  /-- `clone`: the child shares the table (`CLONE_FILES`) or gets a copy. -/
  | clone (t : Nat) (share : Bool)
  | exec (t : Nat)
  | exit (t : Nat)
deriving DecidableEq, Repr

/-- May `register_descriptor_with_min_fd` answer this (descriptor_table.rs 97-150; C21 says which free number it is)? -/
def fits (l : List (Nat × Desc)) (min : Nat) : Option Nat → Bool
  | some n => min ≤ n && n ≤ fdMax && (look l n).isNone
  | none => (List.range' min (fdMax + 1 - min)).all fun n => (look l n).isSome

/-- A call that opens a file, on a table: make the file, register the descriptor; when the table is full the descriptor is
given back by `register_descriptor` and dropped, which closes the file (e.g. handler/eventfd.rs 78-83, handler/socket.rs
133-137).  A build with debug assertions stops at that drop (descriptor/mod.rs 589-595); the model is of a release build. -/
def World.create (w : World) (k : Nat) (tb : Table) (cloexec : Bool) : Option Nat → R (World × Ret)
  | some n =>
    let (w, f) := w.newFile
    .ok (w.setTable k (some { tb with descs := tb.descs ++ [(n, ⟨f, cloexec⟩)] }), .fd n)
  | none => do
    let (w, f) := w.newFile
    let w ← w.release f
    .ok (w, .enfile)

/-- `pipe_helper` (handler/unistd.rs 448-534): two files, two descriptors, both taken back when the numbers cannot be
written. -/
def World.pair (w : World) (k : Nat) (tb : Table) (cloexec : Bool) (n m : Nat) (fault : Bool) : R (World × Ret) :=
  let (w, f) := w.newFile
  let (w, g) := w.newFile
  let descs := tb.descs ++ [(n, ⟨f, cloexec⟩)] ++ [(m, ⟨g, cloexec⟩)]
  if fault then do
    let d ← R.unwrap (look descs n)
    let descs := drop descs n
    let w ← w.release d.file
    let d ← R.unwrap (look descs m)
    let descs := drop descs m
    let w ← w.release d.file
    .ok (w.setTable k (some { tb with descs := descs }), .efault)
  else .ok (w.setTable k (some { tb with descs := descs }), .done)

/-- Put a duplicate of a descriptor at a free number (`dup`, handler/unistd.rs 62-76; `F_DUPFD`, handler/fcntl.rs
147-164).  When no number is free the new descriptor is dropped again. -/
def World.dupTo (w : World) (k : Nat) (tb : Table) (d : Desc) (cloexec : Bool) (full : Ret) : Option Nat → R (World × Ret)
  | some n => .ok ((w.retain d.file).setTable k (some { tb with descs := tb.descs ++ [(n, { d with cloexec := cloexec })] }), .fd n)
  | none => do
    let w ← (w.retain d.file).release d.file
    .ok (w, full)

/-- Put a duplicate of a descriptor at a given number and close what was there (`dup2`, `dup3`, handler/unistd.rs 84-180;
`register_descriptor_with_fd`, descriptor_table.rs 152-176). -/
def World.dupOver (w : World) (k : Nat) (tb : Table) (d : Desc) (cloexec : Bool) (n : Nat) : R (World × Ret) :=
  let old := look tb.descs n
  let w := (w.retain d.file).setTable k (some { tb with descs := drop tb.descs n ++ [(n, { d with cloexec := cloexec })] })
  match old with
  | none => .ok (w, .fd n)
  | some x => do
    let w ← w.release x.file
    .ok (w, .fd n)

/-- `dup3` checks its arguments in this order (handler/unistd.rs 126-163). -/
def World.dup3 (w : World) (k : Nat) (tb : Table) (old new : Int) (flags : Option Bool) : R (World × Ret) :=
  match (handle old).bind (look tb.descs) with
  | none => .ok (w, .ebadf)
  | some d =>
    if old = new then .ok (w, .einval)
    else match handle new with
      | none => .ok (w, .ebadf)
      | some n =>
        match flags with
        | none => .ok (w, .einval)
        | some c => w.dupOver k tb d c n

/-- `dup2` (handler/unistd.rs 84-117). -/
def World.dup2 (w : World) (k : Nat) (tb : Table) (old new : Int) : R (World × Ret) :=
  match handle old, handle new with
  | some o, some n =>
    match look tb.descs o with
    | none => .ok (w, .ebadf)
    | some d => if o = n then .ok (w, .fd n) else w.dupOver k tb d false n
  | _, _ => .ok (w, .ebadf)

/-- `F_SETFD` (handler/fcntl.rs 141-146). -/
def setFlag (l : List (Nat × Desc)) (p : Nat → Bool) (c : Bool) : List (Nat × Desc) :=
  l.map fun e => if p e.1 then (e.1, { e.2 with cloexec := c }) else e

/-- `close` (handler/unistd.rs 36-55). -/
def World.close (w : World) (k : Nat) (tb : Table) (fd : Int) : R (World × Ret) :=
  match (handle fd).bind fun n => (look tb.descs n).map (n, ·) with
  | none => .ok (w, .ebadf)
  | some (n, d) => do
    let w ← (w.setTable k (some { tb with descs := drop tb.descs n })).release d.file
    .ok (w, .done)

/-- `close_range` (handler/close_range.rs 17-80). -/
def World.closeRange (w : World) (k : Nat) (tb : Table) (first last : Nat) (flags : Option Bool) : R (World × Ret) :=
  if first > last then .ok (w, .einval)
  else if first > fdMax then .ok (w, .done)
  else
    let last := min last fdMax
    let inside := fun n => first ≤ n && n ≤ last
    match flags with
    | none => .ok (w, .einval)
    | some true => .ok (w.setTable k (some { tb with descs := setFlag tb.descs inside true }), .done)
    | some false => do
      let w ← (w.setTable k (some { tb with descs := tb.descs.filter fun e => !inside e.1 })).releaseAll
        (filesOf (tb.descs.filter fun e => inside e.1))
      .ok (w, .done)

/-- The descriptor table part of `clone` (handler/clone.rs 103-122). -/
def World.clone (w : World) (th : Thread) (tb : Table) (share : Bool) : World :=
  if share then
    let w := w.setTable th.table (some { tb with rc := tb.rc + 1 })
    { w with threads := w.threads ++ [some ⟨th.table, none⟩] }
  else
    let w := w.retainAll (filesOf tb.descs)
    let k := w.tables.length
    let w := w.addTable ⟨1, tb.descs⟩
    { w with threads := w.threads ++ [some ⟨k, none⟩] }

/-- `Thread::exec` on the table and the condition (thread.rs 128-171): copy the table, leave the old one, close the
descriptors that ask for it, drop the condition. -/
def World.exec (w : World) (t : Nat) (th : Thread) (tb : Table) : R World := do
  let w := w.retainAll (filesOf tb.descs)
  let w ← w.leaveTable th.table tb
  let w ← w.releaseAll (filesOf (tb.descs.filter (·.2.cloexec)))
  let k := w.tables.length
  let w := w.addTable ⟨1, tb.descs.filter (!·.2.cloexec)⟩
  let th := { th with table := k }
  (w.setThread t (some th)).leaveCall t th

/-- The end of a thread (thread.rs 600-620). -/
def World.exit (w : World) (t : Nat) (th : Thread) (tb : Table) : R World := do
  let w ← w.leaveTable th.table tb
  let w ← w.leaveCall t th
  .ok (w.setThread t none)

/-- The thread that acts. -/
def Act.thread : Act → Nat
  | .create t _ _ | .pair t _ _ _ _ | .dup t _ _ | .dup2 t _ _ | .dup3 t _ _ _ | .dupfd t _ _ _ _ | .getfd t _
  | .setfd t _ _ | .close t _ | .closeRange t _ _ _ | .block t _ | .unblock t | .clone t _ | .exec t | .exit t => t

/-- An action of a live thread with its table.  `none`: it cannot happen. -/
def World.act (w : World) (t : Nat) (th : Thread) (tb : Table) : Act → Option (R (World × Ret))
  | .create _ c to => if fits tb.descs 0 to then some (w.create th.table tb c to) else none
  | .pair _ c n m fault =>
    if fits tb.descs 0 (some n) && fits tb.descs 0 (some m) && n != m then some (w.pair th.table tb c n m fault) else none
  | .dup _ fd to =>
    match (handle fd).bind (look tb.descs) with
    | none => some (.ok (w, .ebadf))
    | some d => if fits tb.descs 0 to then some (w.dupTo th.table tb d false .enfile to) else none
  | .dup2 _ o n => some (w.dup2 th.table tb o n)
  | .dup3 _ o n fl => some (w.dup3 th.table tb o n fl)
  | .dupfd _ fd mn c to =>
    match (handle fd).bind (look tb.descs) with
    | none => some (.ok (w, .ebadf))
    | some d =>
      if mn > fdMax then some (.ok (w, .einval))
      else if fits tb.descs mn to then some (w.dupTo th.table tb d c .einval to) else none
  | .getfd _ fd =>
    match (handle fd).bind (look tb.descs) with
    | none => some (.ok (w, .ebadf))
    | some d => some (.ok (w, .flags d.cloexec))
  | .setfd _ fd fl =>
    match (handle fd).bind fun n => (look tb.descs n).map fun _ => n with
    | none => some (.ok (w, .ebadf))
    | some n =>
      match fl with
      | none => some (.ok (w, .einval))
      | some c => some (.ok (w.setTable th.table (some { tb with descs := setFlag tb.descs (· == n) c }), .done))
  | .close _ fd => some (w.close th.table tb fd)
  | .closeRange _ a b fl => some (w.closeRange th.table tb a b fl)
  | .block _ fd =>
    match th.active with
    | some _ => none
    | none =>
      match (handle fd).bind (look tb.descs) with
      | none => some (.ok (w, .ebadf))
      | some d => some (.ok ((w.retain d.file).setThread t (some { th with active := some d.file }), .done))
  | .unblock _ =>
    match th.active with
    | none => none
    | some _ => some ((w.leaveCall t th).bind fun w => .ok (w, .done))
  | .clone _ share => some (.ok (w.clone th tb share, .done))
  | .exec _ => some ((w.exec t th tb).bind fun w => .ok (w, .done))
  | .exit _ => some ((w.exit t th tb).bind fun w => .ok (w, .done))

/-- One step of the host. -/
def World.step (w : World) (a : Act) : Option (R (World × Ret)) :=
  match w.threads[a.thread]? with
  | some (some th) =>
    match w.tableOf th with
    | .panic => some .panic
    | .ok tb => w.act a.thread th tb a
  | _ => none

/-- A host with `n` processes of one thread each and no descriptors (process.rs 969-1057; the standard streams a process
starts with are files of C code, which are not modelled). -/
def World.start (n : Nat) : World := ⟨[], List.replicate n (some ⟨1, []⟩), (List.range n).map fun k => some ⟨k, none⟩⟩

end Shadow.Files
