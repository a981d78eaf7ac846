import Verif.ProcMaps.Model
/-!
# The reader of network graphs

Source: `/repo/src/lib/gml-parser/src/parser.rs`, `lib.rs` and `gml.rs`.  The result is what C20 starts from.

Trusted: the combinators of `nom` (version 8) do what their documentation says; `str::parse::<f32>` accepts every text that `recognize_float` accepts.
Simplifications: texts are lists of characters; a floating-point value is kept as its text; errors carry no message (`Error` and `Failure` are both `none`, since wherever
they differ the alternatives that would still be tried fail as well); hash maps are lists of pairs in the order of the text, after the check that keys are distinct.
-/
namespace Shadow.Gml
open Shadow.ProcMaps (digits)

/-- `space0` skips these, `multispace0` those. -/
def isSp (c : Char) : Bool := c == ' ' || c == '\t'
def isMs (c : Char) : Bool := c == ' ' || c == '\t' || c == '\r' || c == '\n'
def isDigit (c : Char) : Bool := 48 ≤ c.toNat && c.toNat ≤ 57
def isAlpha (c : Char) : Bool := (97 ≤ c.toNat && c.toNat ≤ 122) || (65 ≤ c.toNat && c.toNat ≤ 90)
/-- The first and the other characters of a key (parser.rs:45-46). -/
def isKey1 (c : Char) : Bool := isAlpha c || c == '_'
def isKeyc (c : Char) : Bool := isAlpha c || isDigit c || c == '_'

/-- `Value` (gml.rs:100-105). -/
inductive Val where
  | int (n : Nat)
  | float (s : List Char)
  | str (s : List Char)
deriving DecidableEq, Repr

abbrev Pair := List Char × Val

/-- `Node`, `Edge`, `GmlItem` and `Gml` (gml.rs:11-16, 35-39, 66-71, 139-145). -/
structure Node where
  id : Option Nat
  other : List Pair
deriving DecidableEq, Repr

structure Edge where
  source : Nat
  target : Nat
  other : List Pair
deriving DecidableEq, Repr

inductive Item where
  | node (n : Node)
  | edge (e : Edge)
  | directed (b : Bool)
  | kv (p : Pair)
deriving DecidableEq, Repr

structure Gml where
  directed : Bool
  nodes : List Node
  edges : List Edge
  other : List Pair
deriving DecidableEq, Repr

/-- `newline` (parser.rs:248-250): blanks, at least one more character of white space, blanks. -/
def newline (l : List Char) : Option (List Char) :=
  match l.dropWhile isSp with
  | [] => none
  | c :: t => if isMs c then some (((c :: t).dropWhile isMs).dropWhile isSp) else none

/-- `key` (parser.rs:43-49). -/
def key : List Char → Option (List Char × List Char)
  | [] => none
  | c :: t => if isKey1 c then some (c :: t.takeWhile isKeyc, t.dropWhile isKeyc) else none

/-- `int` (parser.rs:221-224). -/
def int (l : List Char) : Option (Val × List Char) :=
  if l.takeWhile isDigit = [] then none
  else match digits 10 (2 ^ 31) 0 (l.takeWhile isDigit) with
    | some n => some (.int n, l.dropWhile isDigit)
    | none => none

def scanSign : List Char → List Char × List Char
  | [] => ([], [])
  | c :: t => if c = '+' ∨ c = '-' then ([c], t) else ([], c :: t)

def scanMant (l : List Char) : Option (List Char × List Char) :=
  if l.takeWhile isDigit = [] then
    match l with
    | [] => none
    | c :: t => if c = '.' ∧ t.takeWhile isDigit ≠ [] then some (c :: t.takeWhile isDigit, t.dropWhile isDigit) else none
  else match l.dropWhile isDigit with
    | [] => some (l.takeWhile isDigit, [])
    | c :: t => if c = '.' then some (l.takeWhile isDigit ++ c :: t.takeWhile isDigit, t.dropWhile isDigit) else some (l.takeWhile isDigit, c :: t)

def scanExp : List Char → Option (List Char × List Char)
  | [] => some ([], [])
  | c :: t => if c = 'e' ∨ c = 'E' then
      if (scanSign t).2.takeWhile isDigit = [] then none
      else some (c :: (scanSign t).1 ++ (scanSign t).2.takeWhile isDigit, (scanSign t).2.dropWhile isDigit)
    else some ([], c :: t)

/-- `float` (parser.rs:226-230) with `recognize_float`: a sign, digits with a point, an exponent. -/
def float (l : List Char) : Option (Val × List Char) :=
  match scanMant (scanSign l).2 with
  | none => none
  | some (m, l2) => match scanExp l2 with
    | none => none
    | some (e, l3) => some (.float ((scanSign l).1 ++ (m ++ e)), l3)

/-- `escaped_transform` of parser.rs:235-242: what is not a quote, else an escape, else the end, which must not be at the beginning. -/
def escaped : Bool → List Char → Option (List Char × List Char)
  | started, [] => if started then some ([], []) else none
  | started, c :: t =>
    if c ≠ '"' then (escaped true t).map fun r => (c :: r.1, r.2)
    else if c = '\\' then
      match t with
      | '\\' :: t' => (escaped true t').map fun r => ('\\' :: r.1, r.2)
      | '"' :: t' => (escaped true t').map fun r => ('"' :: r.1, r.2)
      | _ => none
    else if started then some ([], c :: t) else none

/-- `string` (parser.rs:233-246). -/
def string : List Char → Option (Val × List Char)
  | [] => none
  | c :: t => if c = '"' then
      match escaped false t with
      | some (s, d :: r) => if d = '"' then some (.str s, r) else none
      | _ => none
    else none

/-- One alternative of `value`: it must be followed by a line break. -/
def withBreak : Option (Val × List Char) → Option (Val × List Char)
  | none => none
  | some (v, r) => match newline r with
    | none => none
    | some r' => some (v, r')

/-- `value` (parser.rs:212-219). -/
def value (l : List Char) : Option (Val × List Char) :=
  match withBreak (int (l.dropWhile isSp)) with
  | some x => some x
  | none => match withBreak (float (l.dropWhile isSp)) with
    | some x => some x
    | none => withBreak (string (l.dropWhile isSp))

/-- `many_till((key, value), tag("]"))` (parser.rs:156, 184). -/
def pairs : Nat → List Char → Option (List Pair × List Char)
  | 0, _ => none
  | _ + 1, [] => none
  | f + 1, c :: t => if c = ']' then some ([], t) else
      match key (c :: t) with
      | none => none
      | some (k, l1) => match value l1 with
        | none => none
        | some (v, l2) => match pairs f l2 with
          | none => none
          | some (ps, r) => some ((k, v) :: ps, r)

/-- Is there no key twice? -/
def distinct : List Pair → Bool
  | [] => true
  | p :: ps => !(ps.any fun q => q.1 == p.1) && distinct ps

def kId : List Char := ['i', 'd']
def kSource : List Char := ['s', 'o', 'u', 'r', 'c', 'e']
def kTarget : List Char := ['t', 'a', 'r', 'g', 'e', 't']
def kNode : List Char := ['n', 'o', 'd', 'e']
def kEdge : List Char := ['e', 'd', 'g', 'e']
def kDirected : List Char := ['d', 'i', 'r', 'e', 'c', 't', 'e', 'd']
def kGraph : List Char := ['g', 'r', 'a', 'p', 'h']

/-- The common part of `node` (parser.rs:151-167) and `edge` (179-195). -/
def block (l : List Char) : Option (List Pair × List Char) :=
  match l.dropWhile isSp with
  | [] => none
  | c :: t => if c = '[' then
      match newline t with
      | none => none
      | some l1 => match pairs (l1.length + 1) l1 with
        | none => none
        | some (ps, l2) => if distinct ps then
            match newline l2 with
            | none => none
            | some r => some (ps, r)
          else none
    else none

def get (k : List Char) : List Pair → Option Val
  | [] => none
  | p :: ps => if p.1 = k then some p.2 else get k ps

/-- `HashMap::remove`. -/
def without (k : List Char) (ps : List Pair) : List Pair := ps.filter fun p => p.1 != k

/-- The end of `node` (parser.rs:169-176). -/
def toNode (ps : List Pair) : Option Node :=
  match get kId ps with
  | some (.int n) => some ⟨some n, without kId ps⟩
  | some _ => none
  | none => some ⟨none, without kId ps⟩

/-- The end of `edge` (parser.rs:197-209). -/
def toEdge (ps : List Pair) : Option Edge :=
  match get kSource ps, get kTarget ps with
  | some (.int s), some (.int t) => some ⟨s, t, without kTarget (without kSource ps)⟩
  | _, _ => none

/-- `int_to_bool` and `int_as_bool` (parser.rs:252-269). -/
def toBool : Val → Option Bool
  | .int 1 => some true
  | .int 0 => some false
  | _ => none

/-- `item` (parser.rs:52-63). -/
def item (l : List Char) : Option (Item × List Char) :=
  match key l with
  | none => none
  | some (k, l1) =>
    if k = kNode then match block l1 with
      | none => none
      | some (ps, r) => (toNode ps).map fun n => (.node n, r)
    else if k = kEdge then match block l1 with
      | none => none
      | some (ps, r) => (toEdge ps).map fun e => (.edge e, r)
    else if k = kDirected then match value l1 with
      | none => none
      | some (v, r) => (toBool v).map fun b => (.directed b, r)
    else match value l1 with
      | none => none
      | some (v, r) => some (.kv (k, v), r)

/-- `many_till(item, tag("]"))` (parser.rs:73). -/
def items : Nat → List Char → Option (List Item × List Char)
  | 0, _ => none
  | _ + 1, [] => none
  | f + 1, c :: t => if c = ']' then some ([], t) else
      match item (c :: t) with
      | none => none
      | some (i, l1) => match items f l1 with
        | none => none
        | some (is, r) => some (i :: is, r)

def Item.node? : Item → Option Node
  | .node n => some n
  | _ => none
def Item.edge? : Item → Option Edge
  | .edge e => some e
  | _ => none
def Item.directed? : Item → Option Bool
  | .directed b => some b
  | _ => none
def Item.kv? : Item → Option Pair
  | .kv p => some p
  | _ => none

/-- The end of `gml` (parser.rs:75-147). -/
def assemble (is : List Item) : Option Gml :=
  if (is.filterMap Item.directed?).length > 1 then none
  else if distinct (is.filterMap Item.kv?) then
    some { directed := (is.filterMap Item.directed?).head?.getD false, nodes := is.filterMap Item.node?, edges := is.filterMap Item.edge?, other := is.filterMap Item.kv? }
  else none

/-- `tag("graph")`. -/
def tag : List Char → List Char → Option (List Char)
  | [], l => some l
  | _ :: _, [] => none
  | c :: cs, d :: l => if c = d then tag cs l else none

/-- `parse` (lib.rs:55-60) with `gml` (parser.rs:66-148): what follows is dropped. -/
def parse (l : List Char) : Option Gml :=
  match tag kGraph (l.dropWhile isMs) with
  | none => none
  | some l1 => match l1.dropWhile isSp with
    | [] => none
    | c :: t => if c = '[' then
        match newline t with
        | none => none
        | some l2 => match items (l2.length + 1) l2 with
          | none => none
          | some (is, _) => assemble is
      else none

end Shadow.Gml
