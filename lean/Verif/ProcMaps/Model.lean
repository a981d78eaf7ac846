/-!
# Reading `/proc/<pid>/maps`

Source: `/repo/src/main/utility/proc_maps.rs`; the memory mapper of C57 starts from its result.

Trusted: a regular expression is matched greedily from the left with backtracking, as Rust's `regex` says; `from_str_radix` and `parse` of integers.
Simplifications: texts are lists of characters; errors carry no message; `\d` is the ASCII digits (others fail in `parse` anyway).
-/
namespace Shadow.ProcMaps

/-- `\s`: the white space of Unicode. -/
def isSpace (c : Char) : Bool :=
  let n := c.toNat
  (9 ≤ n && n ≤ 13) || n == 32 || n == 0x85 || n == 0xa0 || n == 0x1680 || (0x2000 ≤ n && n ≤ 0x200a) || n == 0x2028 || n == 0x2029 || n == 0x202f || n == 0x205f || n == 0x3000

/-- A part of a regular expression. -/
inductive Item where
  /-- `\s` or `\S`, at least `min` times and as often as possible -/
  | run (space : Bool) (min : Nat)
  | one (space : Bool)
  | lit (c : Char)
deriving DecidableEq, Repr

/-- The rest after `k`, `k - 1`, … characters is tried. -/
def down (f : List Char → Option (List (List Char))) (l : List Char) (min : Nat) : Nat → Option (List (List Char))
  | 0 => if min = 0 then (f l).map ([] :: ·) else none
  | k + 1 => if k + 1 < min then none else match f (l.drop (k + 1)) with
    | some caps => some (l.take (k + 1) :: caps)
    | none => down f l min k

/-- The pieces of the whole text that match the parts. -/
def matchRe : List Item → List Char → Option (List (List Char))
  | [], [] => some []
  | [], _ :: _ => none
  | .lit _ :: _, [] => none
  | .lit c :: is, d :: l => if c = d then (matchRe is l).map ([d] :: ·) else none
  | .one _ :: _, [] => none
  | .one sp :: is, d :: l => if isSpace d = sp then (matchRe is l).map ([d] :: ·) else none
  | .run sp min :: is, l => down (matchRe is) l min (l.takeWhile (fun c => isSpace c == sp)).length

/-- `RE` (proc_maps.rs:106-111). -/
def lineRe : List Item :=
  [.run false 1, .lit '-', .run false 1, .run true 1, .one false, .one false, .one false, .one false, .run true 1, .run false 1, .run true 1,
   .run false 1, .lit ':', .run false 1, .run true 1, .run false 1, .run true 0, .run false 0, .run true 0, .run false 0]

/-- `SPECIAL_RE` (proc_maps.rs:43). -/
def specialRe : List Item := [.lit '[', .run false 1, .lit ']']

/-- `char::to_digit`. -/
def digit (radix : Nat) (c : Char) : Option Nat :=
  let n := c.toNat
  let d := if 48 ≤ n ∧ n ≤ 57 then some (n - 48) else if 97 ≤ n ∧ n ≤ 122 then some (n - 87) else if 65 ≤ n ∧ n ≤ 90 then some (n - 55) else none
  match d with
  | some d => if d < radix then some d else none
  | none => none

/-- The digits of a number that must stay below `lim`. -/
def digits (radix lim : Nat) : Nat → List Char → Option Nat
  | acc, [] => some acc
  | acc, c :: cs => match digit radix c with
    | none => none
    | some d => if acc * radix + d < lim then digits radix lim (acc * radix + d) cs else none

/-- `from_str_radix` of an unsigned type with `lim` values. -/
def parseU (radix lim : Nat) : List Char → Option Nat
  | [] => none
  | ['+'] => none
  | '+' :: cs => digits radix lim 0 cs
  | cs => digits radix lim 0 cs

/-- `from_str_radix` of a signed type from `-lim` to `lim - 1`. -/
def parseI (radix lim : Nat) : List Char → Option Int
  | [] => none
  | ['+'] => none
  | ['-'] => none
  | '+' :: cs => (digits radix lim 0 cs).map (fun n : Nat => (n : Int))
  | '-' :: cs => (digits radix (lim + 1) 0 cs).map (fun n : Nat => -(n : Int))
  | cs => (digits radix lim 0 cs).map (fun n : Nat => (n : Int))

/-- `MappingPath` (proc_maps.rs:31-38). -/
inductive MPath where
  | initialStack
  | threadStack (tid : Int)
  | vdso
  | heap
  | special (s : List Char)
  | path (s : List Char)
deriving DecidableEq, Repr

/-- What stands in brackets (proc_maps.rs:51-68). -/
def parseSpecial (s : List Char) : Option MPath :=
  if s.take 6 = ['s', 't', 'a', 'c', 'k', ':'] ∧ s.length > 6 ∧ (s.drop 6).all (fun c => (digit 10 c).isSome) then
    match parseI 10 (2 ^ 31) (s.drop 6) with
    | some n => some (.threadStack n)
    | none => none
  else if s = ['s', 't', 'a', 'c', 'k'] then some .initialStack
  else if s = ['v', 'd', 's', 'o'] then some .vdso
  else if s = ['h', 'e', 'a', 'p'] then some .heap
  else some (.special s)

/-- `MappingPath::from_str` (proc_maps.rs:42-72). -/
def parsePath (s : List Char) : Option MPath :=
  if s.head? = some '/' then some (.path s)
  else match matchRe specialRe s with
    | some [_, inner, _] => parseSpecial inner
    | _ => none

structure Mapping where
  first : Nat
  last : Nat
  read : Bool
  write : Bool
  execute : Bool
  shared : Bool
  offset : Nat
  major : Int
  minor : Int
  inode : Nat
  path : Option MPath
  deleted : Bool
deriving DecidableEq, Repr

def parseBit (yes no : Char) (s : List Char) : Option Bool :=
  if s = [yes] then some true else if s = [no] then some false else none

/-- The field `path` (proc_maps.rs:160-167): it may be empty. -/
def parsePathField (s : List Char) : Option (Option MPath) := if s = [] then some none else (parsePath s).map some

/-- The field `deleted` (proc_maps.rs:168-175). -/
def parseDeleted (s : List Char) : Option Bool :=
  if s = [] then some false else if s = ['(', 'd', 'e', 'l', 'e', 't', 'e', 'd', ')'] then some true else none

/-- `Mapping::from_str` (proc_maps.rs:105-178). -/
def parseLine (l : List Char) : Option Mapping :=
  match matchRe lineRe l with
  | some [b, _, e, _, r, w, x, sh, _, off, _, mj, _, mn, _, ino, _, path, _, del] => do
    let first ← parseU 16 (2 ^ 64) b
    let last ← parseU 16 (2 ^ 64) e
    let read ← parseBit 'r' '-' r
    let write ← parseBit 'w' '-' w
    let execute ← parseBit 'x' '-' x
    let shared ← parseBit 's' 'p' sh
    let offset ← parseU 16 (2 ^ 64) off
    let major ← parseI 16 (2 ^ 31) mj
    let minor ← parseI 16 (2 ^ 31) mn
    let inode ← parseU 10 (2 ^ 64) ino
    let path ← parsePathField path
    let deleted ← parseDeleted del
    some { first, last, read, write, execute, shared, offset, major, minor, inode, path, deleted }
  | _ => none

/-- A line from its reversed characters, without a carriage return at the end. -/
def endLine : List Char → List Char
  | '\r' :: c => c.reverse
  | c => c.reverse

/-- `str::lines`: pieces between line feeds, without a carriage return at the end; nothing after the last line feed is no line. -/
def lines : List Char → List Char → List (List Char)
  | [], [] => []
  | [], c :: cur => [(c :: cur).reverse]
  | c :: l, cur => if c = '\n' then endLine cur :: lines l [] else lines l (c :: cur)

def parseAll : List (List Char) → Option (List Mapping)
  | [] => some []
  | l :: ls => match parseLine l, parseAll ls with
    | some m, some ms => some (m :: ms)
    | _, _ => none

/-- `parse_file_contents` (proc_maps.rs:182-188). -/
def parseFile (s : List Char) : Option (List Mapping) := parseAll (lines s [])

end Shadow.ProcMaps
