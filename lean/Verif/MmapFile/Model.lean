/-!
# Mapping of a file into memory: the handler of `mmap`

Source: `mmap`, `open_plugin_file`, `close_plugin_file` and `create_persistent_mmap_path` of `/repo/src/main/host/syscall/handler/mman.rs`.

The file that a descriptor of the program stands for is open in the simulator, not in the program: the handler lets the program open `/proc/<pid of the simulator>/fd/<number>`, map it, and close it again.

What native calls, memory and the memory manager (C57) answer are parameters. Simplifications: the path is not longer than `PATH_MAX` (it has two numbers), so it is given by the number of the file; `Errno` of a failed map is a number. That there is no memory for the buffer of the path (a panic) is left out.
-/
namespace Shadow.MmapFile

abbrev Flags := BitVec 32

/-- `FileType` of a regular file object (regular_file.h). -/
inductive Kind where
  | regular | localtime | other
deriving DecidableEq, Repr

/-- A `LegacyFile`, with what the kernel says of its flags. -/
structure File where
  closed : Bool
  isFile : Bool
  kind : Kind
  /-- number of the file in the simulator -/
  osFd : Nat
  flagsAtOpen : Flags
  nativeFlags : Flags
  shadowFlags : Flags
  modeAtOpen : Nat
deriving DecidableEq, Repr

inductive Desc where
  | new
  | legacy (f : File)
deriving DecidableEq, Repr

/-- What the program has open natively: the file of the simulator, flags and mode. -/
structure Opened where
  osFd : Nat
  flags : Flags
  mode : Nat
deriving DecidableEq, Repr

structure Map where
  addr : Nat
  len : Nat
  prot : Nat
  flags : Nat
  /-- what is mapped; `none` is no file -/
  file : Option Opened
  offset : Int
deriving DecidableEq, Repr

/-- The program, natively: open files by numbers, allocated buffers, maps. -/
structure Plugin where
  fds : List (Nat × Opened)
  bufs : List Nat
  maps : List Map
deriving DecidableEq, Repr

/-- What is answered in this call. -/
structure Env where
  protAll : Nat
  mapAll : Nat
  pathExists : Bool
  bufAddr : Nat
  writePath : Bool
  writeNul : Bool
  open_ : Option Nat
  /-- for an address that is asked for, the one given or an error -/
  map : Nat → Except Nat Nat

inductive Ret where
  | addr (a : Nat)
  | einval | ebadf | eacces
  /-- what the memory manager says -/
  | map (e : Nat)
deriving DecidableEq, Repr

def O_CREAT : Flags := 64
def O_EXCL : Flags := 128
def O_NOCTTY : Flags := 256
def O_TRUNC : Flags := 512
def O_DIRECTORY : Flags := 65536
def O_NOFOLLOW : Flags := 131072
def O_CLOEXEC : Flags := 524288
def O_TMPFILE : Flags := 4259840
/-- regular_file.c:36 -/
def SHADOW_FLAG_MASK : Flags := O_CLOEXEC

/-- The flags to open with (mman.rs:359-387). -/
def openFlags (f : File) : Flags :=
  let creation := O_CLOEXEC ||| O_CREAT ||| O_DIRECTORY ||| O_EXCL ||| O_NOCTTY ||| O_NOFOLLOW ||| O_TMPFILE ||| O_TRUNC
  let flags := f.flagsAtOpen &&& (creation &&& ~~~O_CLOEXEC)
  let flags := flags ||| (f.nativeFlags &&& ~~~SHADOW_FLAG_MASK)
  let flags := flags ||| f.shadowFlags
  let flags := flags &&& ~~~(O_CREAT ||| O_EXCL ||| O_TMPFILE ||| O_TRUNC)
  flags &&& ~~~O_NOFOLLOW

/-- `AllocdMem::new` and `free`. -/
def Plugin.alloc (p : Plugin) (a : Nat) : Plugin := { p with bufs := a :: p.bufs }
def Plugin.free (p : Plugin) (a : Nat) : Plugin := { p with bufs := p.bufs.erase a }

/-- `native_open` and `native_close`. -/
def Plugin.open_ (p : Plugin) (n : Nat) (o : Opened) : Plugin := { p with fds := (n, o) :: p.fds }
def Plugin.close (p : Plugin) (n : Nat) : Plugin := { p with fds := p.fds.filter (·.1 != n) }

/-- `open_plugin_file` (mman.rs:291-416). -/
def openFile (e : Env) (p : Plugin) (f : File) : Plugin × Option Nat :=
  if f.kind ≠ .regular ∧ f.kind ≠ .localtime then (p, none)
  else if !e.pathExists then (p, none)
  else
    let p := p.alloc e.bufAddr
    if !e.writePath then (p.free e.bufAddr, none)
    else if !e.writeNul then (p.free e.bufAddr, none)
    else
      match e.open_ with
      | none => (p.free e.bufAddr, none)
      | some n => ((p.open_ n ⟨f.osFd, openFlags f, f.modeAtOpen⟩).free e.bufAddr, some n)

/-- `do_mmap` of the memory manager: the native call. -/
def doMap (e : Env) (p : Plugin) (addr len prot flags : Nat) (n : Option Nat) (offset : Int) : Plugin × Ret :=
  match e.map addr with
  | .error x => (p, .map x)
  | .ok a => ({ p with maps := ⟨a, len, prot, flags, n.bind fun n => p.fds.lookup n, offset⟩ :: p.maps }, .addr a)

/-- The second half of `mmap` (mman.rs:255-288). -/
def mapWith (e : Env) (p : Plugin) (addr len prot flags : Nat) (f : Option File) (offset : Int) : Plugin × Ret :=
  match f with
  | none => doMap e p addr len prot flags none offset
  | some f =>
    match openFile e p f with
    | (p, none) => (p, .eacces)
    | (p, some n) =>
      let r := doMap e p addr len prot flags (some n) offset
      (r.1.close n, r.2)

/-- `mmap` (mman.rs:150-289). -/
def mmap (e : Env) (table : Nat → Option Desc) (p : Plugin) (addr len prot flags fd : Nat) (offset : Int) : Plugin × Ret :=
  if prot &&& e.protAll ≠ prot then (p, .einval)
  else if flags &&& e.mapAll ≠ flags then (p, .einval)
  -- `MAP_SHARED` 1, `MAP_PRIVATE` 2, `MAP_SHARED_VALIDATE` 3
  else if len = 0 ∨ flags &&& 3 = 0 then (p, .einval)
  -- `MAP_ANONYMOUS` 32
  else if fd ≤ 2 ∧ flags &&& 32 = 0 then (p, .ebadf)
  else if flags &&& 32 ≠ 0 then mapWith e p addr len prot flags none offset
  else
    match table fd with
    | none => (p, .ebadf)
    | some .new => (p, .einval)
    | some (.legacy f) =>
      if f.closed then (p, .ebadf)
      else if !f.isFile then (p, .eacces)
      else mapWith e p addr len prot flags (some f) offset

end Shadow.MmapFile
