import Verif.Base.Panic
/-!
# The libraries that are loaded into every program

Source: `inject_preloads` in `/repo/src/main/utility/mod.rs:492-569`, which `/repo/src/main/host/managed_thread.rs:95-116` calls whenever a program is started, also by `execve`.

Texts are lists of bytes.

Simplification: of the entries of the environment, that they contain no byte 0 is not represented (a `CString` has none); for the result it is checked.
-/
namespace Shadow.Preload

open Shadow.Base

/-- `LD_PRELOAD=` (mod.rs:499). -/
def key : List Nat := [76, 68, 95, 80, 82, 69, 76, 79, 65, 68, 61]

/-- A space or a colon (mod.rs:530, 537). -/
def isSep (c : Nat) : Bool := c = 32 || c = 58

/-- `split` of a slice (mod.rs:537). -/
def split : List Nat → List (List Nat)
  | [] => [[]]
  | c :: s =>
    if isSep c then [] :: split s
    else match split s with
      | [] => [[c]]
      | p :: ps => (c :: p) :: ps

/-- The output without the key (mod.rs:551-562). -/
def join : List (List Nat) → List Nat
  | [] => []
  | p :: ps => p ++ (ps.map (fun q => 58 :: q)).flatten

/-- The new value of an entry (mod.rs:517-566). -/
def value (old : List Nat) (inj : List (List Nat)) : R (List Nat) := do
  R.assert (inj.all (fun p => !p.any isSep))
  let rest := (split old).filter (fun p => !inj.contains p)
  let out := key ++ join (inj ++ rest)
  R.assert (!out.contains 0)
  .ok out

/-- The first entry with the key, which is replaced (mod.rs:502-515). -/
def replace (inj : List (List Nat)) : List (List Nat) → Option (R (List (List Nat)))
  | [] => none
  | e :: env =>
    if key.isPrefixOf e then some (do
      let v ← value (e.drop key.length) inj
      .ok (v :: env))
    else match replace inj env with
      | none => none
      | some r => some (do
        let env' ← r
        .ok (e :: env'))

/-- `inject_preloads` (mod.rs:498-569). -/
def inject (env : List (List Nat)) (inj : List (List Nat)) : R (List (List Nat)) :=
  match replace inj env with
  | some r => r
  | none => do
    let v ← value [] inj
    .ok (env ++ [v])

end Shadow.Preload
