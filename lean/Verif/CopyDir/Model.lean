/-!
# Copying of the template directory, and `~` in paths

Source: `copy_dir_all`, `create_dir_with_mode` and `tilde_expansion` of `/repo/src/main/utility/mod.rs`.

The functions of the file system are modelled as the standard library documents them: `DirEntry::metadata` does not follow symbolic links, `std::fs::copy` does, copies contents and permissions, and refuses what is not a
regular file; `DirBuilder` creates a directory with the mode without the bits of the umask; only in a directory that the owner may write and search can something be created, unless the user is privileged. The entries of a
directory come in any order.

Simplifications: the source can be read and does not change, the target is not inside of it, there is space; other kinds of files (devices, sockets, fifos) are left out. Contents are numbers.
-/
namespace Shadow.CopyDir

/-- The entries of a directory, in the order in which they are read. A link is given by the regular file (contents and mode) that it leads to, if any. -/
inductive Forest where
  | nil
  | file (name c m : Nat) (rest : Forest)
  | link (name : Nat) (to : Option (Nat × Nat)) (rest : Forest)
  | dir (name m : Nat) (sub rest : Forest)
deriving DecidableEq, Repr

inductive Node where
  | file (c m : Nat)
  | dir (m : Nat)
deriving DecidableEq, Repr

/-- A path below the target, by names. -/
abbrev Path := List Nat

structure Env where
  umask : Nat
  priv : Bool

/-- The mode that a new directory gets. -/
def Env.mask (e : Env) (m : Nat) : Nat := (m % 4096) &&& (4095 ^^^ (e.umask % 4096))

/-- Something can be created in a directory of this mode by its owner. -/
def Env.canWrite (e : Env) (m : Nat) : Bool := e.priv || ((m &&& 0o300) == 0o300)

/-- `DirCopyTask` (utility/mod.rs:250-254), with the mode of the directory that the new one is created in, and what is in the source. -/
structure Task where
  dst : Path
  parent : Nat
  mode : Nat
  src : Forest

/-- The loop over the entries (utility/mod.rs:270-288): what is created, and the stack; `none` is an error. -/
def entries (e : Env) (dst : Path) (m : Nat) : Forest → List (Path × Node) → List Task → Option (List (Path × Node) × List Task)
  | .nil, out, stack => some (out, stack)
  | .file n c fm rest, out, stack => if e.canWrite m then entries e dst m rest (out ++ [(dst ++ [n], .file c fm)]) stack else none
  | .link n (some (c, fm)) rest, out, stack => if e.canWrite m then entries e dst m rest (out ++ [(dst ++ [n], .file c fm)]) stack else none
  | .link _ none _, _, _ => none
  | .dir n dm sub rest, out, stack => entries e dst m rest out (⟨dst ++ [n], m, dm, sub⟩ :: stack)

/-- The loop over the stack (utility/mod.rs:265-289). -/
def loop (e : Env) : Nat → List (Path × Node) → List Task → Option (List (Path × Node))
  | _, out, [] => some out
  | 0, _, _ :: _ => none
  | k + 1, out, t :: stack =>
    if e.canWrite t.parent then
      match entries e t.dst (e.mask t.mode) t.src (out ++ [(t.dst, .dir (e.mask t.mode))]) stack with
      | none => none
      | some (out, stack) => loop e k out stack
    else none

/-- The number of directories in it. -/
def Forest.dirs : Forest → Nat
  | .nil => 0
  | .file _ _ _ r => r.dirs
  | .link _ _ r => r.dirs
  | .dir _ _ s r => 1 + s.dirs + r.dirs

/-- `copy_dir_all` (utility/mod.rs:248-292): what is created for a directory with this mode and these entries, in a directory of mode `parent`. -/
def copyAll (e : Env) (parent mode : Nat) (src : Forest) : Option (List (Path × Node)) := loop e (1 + src.dirs) [] [⟨[], parent, mode, src⟩]

/-! ## `~` -/

/-- `PathBuf::push`, as documented: an absolute path replaces. -/
def push (p q : List Char) : List Char :=
  if q.head? = some '/' then q
  else if p = [] ∨ p.getLast? = some '/' then p ++ q
  else p ++ '/' :: q

/-- `str::split_once('/')`. -/
def splitSlash : List Char → Option (List Char × List Char)
  | [] => none
  | c :: l => if c = '/' then some ([], l) else (splitSlash l).map fun p => (c :: p.1, p.2)

/-- `tilde_expansion` (utility/mod.rs:223-244). -/
def tilde (home : Option (List Char)) (path : List Char) : List Char :=
  match path with
  | '~' :: x =>
    let p := (splitSlash x).getD (x, [])
    match p.1 with
    | [] =>
      match home with
      | some h => push (push [] h) p.2
      | none => path
    | c :: _ => if c = '+' ∨ c = '-' then path else push (push (push [] "/home".toList) p.1) p.2
  | _ => path

end Shadow.CopyDir
