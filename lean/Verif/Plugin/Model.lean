import Verif.Base.Panic
/-!
# Whether a file can be started as a program

Source: `verify_plugin_path`, `verify_plugin_path_internal`, `get_interpreter` and `is_dynamic_bin` in `/repo/src/main/utility/mod.rs:337-488`, and the translation of errors in
`/repo/src/main/host/managed_thread.rs:565-590`, which `execve` returns to the program.

Paths and contents are lists of bytes. The file system is a parameter, and so is the loader, which says whether a file is dynamically linked.

Simplification: errors of the file system other than the two that the code tells apart are one.
-/
namespace Shadow.Plugin

abbrev Path := List Nat

inductive IoErr where
  | notFound
  | denied
  | other
deriving DecidableEq, Repr

structure File where
  regular : Bool
  /-- one of the bits that allow execution is set -/
  exec : Bool
  content : List Nat
  /-- what the loader says (mod.rs:471-488) -/
  dynamic : Bool
deriving DecidableEq, Repr

/-- What opening and reading a path gives. -/
abbrev Fs := Path → IoErr ⊕ File

/-- `VerifyPluginPathError` (mod.rs:337-356). -/
inductive Err where
  | notFound
  | notFile
  | notExecutable
  | notDynamic
  | interpreter (e : Err)
  | unknownType
  | denied
  | io
deriving DecidableEq, Repr

/-- From an error of the file system (mod.rs:359-371). -/
def ofIo : IoErr → Err
  | .notFound => .notFound
  | .denied => .denied
  | .other => .io

/-- `linux_api::limits::PATH_MAX`. -/
def PATH_MAX : Nat := 4096

/-- What begins an ELF file (mod.rs:416). -/
def elfMagic : List Nat := [127, 69, 76, 70]

/-- `get_interpreter` (mod.rs:458-469). -/
def interpreter (header : List Nat) : Option Path :=
  match header with
  | 35 :: 33 :: rest => some ((rest.dropWhile (· = 32)).takeWhile (fun b => !(b = 32 || b = 10)))
  | _ => none

/-- What is known of a file before its interpreter is looked at (mod.rs:398-433): an answer, or the interpreter to look at. -/
def look (fs : Fs) (path : Path) : Option Err ⊕ Path :=
  match fs path with
  | .inl e => .inl (some (ofIo e))
  | .inr f =>
    if f.regular = false then .inl (some .notFile)
    else if f.exec = false then .inl (some .notExecutable)
    else
      let buf := f.content.take PATH_MAX
      if elfMagic.isPrefixOf buf then
        if f.dynamic then .inl none else .inl (some .notDynamic)
      else match interpreter buf with
        | some i => .inr i
        | none => .inl (some .unknownType)

/-- `verify_plugin_path` and `verify_plugin_path_internal` (mod.rs:395-456), which call each other, with the paths that were checked before. The first argument is the depth to
    which calls may go; `none` says that this was not enough. -/
def verify (fs : Fs) : Nat → List Path → Path → Option (Option Err × List Path)
  | 0, _, _ => none
  | n + 1, cache, path =>
    if path ∈ cache then some (none, cache)
    else match look fs path with
      | .inl none => some (none, path :: cache)
      | .inl (some e) => some (some e, cache)
      | .inr i => match verify fs n cache i with
        | none => none
        | some (none, cache') => some (none, path :: cache')
        | some (some e, cache') => some (some (.interpreter e), cache')

/-- What `execve` returns (managed_thread.rs:565-588). -/
inductive Errno where
  | ENOENT
  | EACCES
  | ENOEXEC
deriving DecidableEq, Repr

def errno : Err → Errno
  | .notFound => .ENOENT
  | .notFile => .EACCES
  | .notExecutable => .EACCES
  | .unknownType => .ENOEXEC
  | .notDynamic => .ENOEXEC
  | .interpreter e => errno e
  | .denied => .EACCES
  | .io => .ENOEXEC

/-- Any number of checks one after the other, each as deep as needed. -/
inductive Checks (fs : Fs) : List Path → Prop where
  | none : Checks fs []
  | check {cache cache' : List Path} {n : Nat} {path : Path} {r : Option Err} : Checks fs cache → verify fs n cache path = some (r, cache') → Checks fs cache'

end Shadow.Plugin
