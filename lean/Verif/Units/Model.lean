/-!
# Model of configured quantities: prefixes, conversion, parsing and printing

Source: `/repo/src/main/utility/units.rs`.

* The three quantities (`Time`, `Bytes`, `BitsPerSec`) hold a `u64` and a prefix; they differ in the
  accepted suffixes.  The four prefix types are modelled by `PrefixType`, an enumeration with a
  magnitude, the printed form, the accepted spellings and a default.
* Text is a list of characters.  The regular expression `^([+-]?[0-9\.]*)\s*(.*)$` is modelled by what
  its greedy leftmost match yields: an optional sign, the longest run of digits and dots, the longest
  run of white space, and the rest, which must not contain a line feed.
* The lossy (floating point) conversion is not modelled.
-/
namespace Shadow.Units

abbrev Str := List Char

/-- units.rs:29-48, the trait `Prefix`. -/
structure PrefixType (P : Type) where
  mag : P → Nat
  /-- `Display` -/
  shown : P → Str
  /-- the spellings accepted by `FromStr` -/
  names : P → List Str
  /-- all prefixes, in the order of the arms of `FromStr` -/
  all : List P
  dflt : P

/-! ## The prefix types -/

inductive Si where
  | nano | micro | milli | base | kilo | kibi | mega | mebi | giga | gibi | tera | tebi
deriving Repr, DecidableEq

/-- units.rs:109-132, 91-107, 68-89. -/
def si : PrefixType Si where
  mag
    | .nano => 10^9 / 10^9
    | .micro => 10^9 / 10^6
    | .milli => 10^9 / 10^3
    | .base => 10^9
    | .kilo => 10^9 * 10^3
    | .kibi => 10^9 * 2^10
    | .mega => 10^9 * 10^6
    | .mebi => 10^9 * 2^20
    | .giga => 10^9 * 10^9
    | .gibi => 10^9 * 2^30
    | .tera => 10^9 * 10^12
    | .tebi => 10^9 * 2^40
  shown
    | .nano => ['n']
    | .micro => ['μ']
    | .milli => ['m']
    | .base => []
    | .kilo => ['K']
    | .kibi => ['K', 'i']
    | .mega => ['M']
    | .mebi => ['M', 'i']
    | .giga => ['G']
    | .gibi => ['G', 'i']
    | .tera => ['T']
    | .tebi => ['T', 'i']
  names
    | .nano => [['n'], ['n', 'a', 'n', 'o']]
    | .micro => [['u'], ['μ'], ['m', 'i', 'c', 'r', 'o']]
    | .milli => [['m'], ['m', 'i', 'l', 'l', 'i']]
    | .base => []
    | .kilo => [['K'], ['k', 'i', 'l', 'o']]
    | .kibi => [['K', 'i'], ['k', 'i', 'b', 'i']]
    | .mega => [['M'], ['m', 'e', 'g', 'a']]
    | .mebi => [['M', 'i'], ['m', 'e', 'b', 'i']]
    | .giga => [['G'], ['g', 'i', 'g', 'a']]
    | .gibi => [['G', 'i'], ['g', 'i', 'b', 'i']]
    | .tera => [['T'], ['t', 'e', 'r', 'a']]
    | .tebi => [['T', 'i'], ['t', 'e', 'b', 'i']]
  all := [.nano, .micro, .milli, .kilo, .kibi, .mega, .mebi, .giga, .gibi, .tera, .tebi, .base]
  dflt := .base

inductive SiUpper where
  | base | kilo | kibi | mega | mebi | giga | gibi | tera | tebi
deriving Repr, DecidableEq

/-- units.rs:187-204, 170-185, 150-168. -/
def siUpper : PrefixType SiUpper where
  mag
    | .base => 1
    | .kilo => 10^3
    | .kibi => 2^10
    | .mega => 10^6
    | .mebi => 2^20
    | .giga => 10^9
    | .gibi => 2^30
    | .tera => 10^12
    | .tebi => 2^40
  shown
    | .base => []
    | .kilo => ['K']
    | .kibi => ['K', 'i']
    | .mega => ['M']
    | .mebi => ['M', 'i']
    | .giga => ['G']
    | .gibi => ['G', 'i']
    | .tera => ['T']
    | .tebi => ['T', 'i']
  names
    | .base => []
    | .kilo => [['K'], ['k', 'i', 'l', 'o']]
    | .kibi => [['K', 'i'], ['k', 'i', 'b', 'i']]
    | .mega => [['M'], ['m', 'e', 'g', 'a']]
    | .mebi => [['M', 'i'], ['m', 'e', 'b', 'i']]
    | .giga => [['G'], ['g', 'i', 'g', 'a']]
    | .gibi => [['G', 'i'], ['g', 'i', 'b', 'i']]
    | .tera => [['T'], ['t', 'e', 'r', 'a']]
    | .tebi => [['T', 'i'], ['t', 'e', 'b', 'i']]
  all := [.kilo, .kibi, .mega, .mebi, .giga, .gibi, .tera, .tebi, .base]
  dflt := .base

inductive Tm where
  | nano | micro | milli | sec | min | hour
deriving Repr, DecidableEq

def w (s : String) : Str := s.toList

/-- units.rs:257-270, 242-255, 221-240. -/
def tm : PrefixType Tm where
  mag
    | .nano => 10^9 / 10^9
    | .micro => 10^9 / 10^6
    | .milli => 10^9 / 10^3
    | .sec => 10^9
    | .min => 10^9 * 60
    | .hour => 10^9 * 60 * 60
  shown
    | .nano => w "ns"
    | .micro => w "μs"
    | .milli => w "ms"
    | .sec => w "sec"
    | .min => w "min"
    | .hour => w "hour"
  names
    | .nano => [w "ns", w "nanosecond", w "nanoseconds"]
    | .micro => [w "us", w "μs", w "microsecond", w "microseconds"]
    | .milli => [w "ms", w "millisecond", w "milliseconds"]
    | .sec => [w "s", w "sec", w "secs", w "second", w "seconds"]
    | .min => [w "m", w "min", w "mins", w "minute", w "minutes"]
    | .hour => [w "h", w "hr", w "hrs", w "hour", w "hours"]
  all := [.nano, .micro, .milli, .sec, .min, .hour]
  dflt := .sec

inductive TmUpper where
  | sec | min | hour
deriving Repr, DecidableEq

/-- units.rs:307-315, 297-305, 281-295. -/
def tmUpper : PrefixType TmUpper where
  mag
    | .sec => 1
    | .min => 60
    | .hour => 60 * 60
  shown
    | .sec => w "sec"
    | .min => w "min"
    | .hour => w "hour"
  names
    | .sec => [w "s", w "sec", w "secs", w "second", w "seconds"]
    | .min => [w "m", w "min", w "mins", w "minute", w "minutes"]
    | .hour => [w "h", w "hr", w "hrs", w "hour", w "hours"]
  all := [.sec, .min, .hour]
  dflt := .sec

/-! ## Conversion -/

variable {P : Type}

/-- A quantity (`Time`, `Bytes` or `BitsPerSec`). -/
structure Qty (P : Type) where
  value : Nat
  pre : P
deriving Repr, DecidableEq

inductive Res (α : Type) where
  | ok (a : α)
  | precision
  | bounds
  | panic
deriving Repr, DecidableEq

def u64Max : Nat := 18446744073709551615

/-- units.rs:34-41, `conversion_factor`; `none` is the precision error. -/
def factor (T : PrefixType P) (f t : P) : Option Nat :=
  if T.mag f % T.mag t ≠ 0 then none else some (T.mag f / T.mag t)

/-- units.rs:364-376, `convert`. -/
def convert (T : PrefixType P) (q : Qty P) (t : P) : Res (Qty P) :=
  match factor T q.pre t with
  | none => .precision
  | some k =>
    if k > u64Max then .panic
    else if q.value * k > u64Max then .bounds
    else .ok ⟨q.value * k, t⟩

/-- units.rs:552-556, `From<Time<TimePrefix>> for Duration`: nanoseconds; `none` is the panic of
    `unwrap`. -/
def toNanos (q : Qty Tm) : Option Nat :=
  match convert tm q .nano with
  | .ok r => some r.value
  | _ => none

/-! ## Text -/

/-- Suffixes: units.rs:550, 573, 583. -/
def timeSuffixes : List Str := [[]]
def byteSuffixes : List Str := [w "B", w "byte", w "bytes"]
def bitSuffixes : List Str := [w "bit", w "bits"]

def isDigit (c : Char) : Bool := '0' ≤ c ∧ c ≤ '9'

/-- Unicode `White_Space`, as used by `\s` and `str::trim`. -/
def isWs (c : Char) : Bool :=
  let n := c.toNat
  (9 ≤ n ∧ n ≤ 13) ∨ n = 32 ∨ n = 133 ∨ n = 160 ∨ n = 5760 ∨ (8192 ≤ n ∧ n ≤ 8202) ∨ n = 8232
    ∨ n = 8233 ∨ n = 8239 ∨ n = 8287 ∨ n = 12288

/-- `u64::to_string`, decimal digits. -/
def showNat (n : Nat) : Str :=
  if n < 10 then [Char.ofNat (48 + n)] else showNat (n / 10) ++ [Char.ofNat (48 + n % 10)]
termination_by n

/-- units.rs:387-391, `Display`. -/
def display (T : PrefixType P) (suffixes : List Str) (q : Qty P) : Str :=
  showNat q.value ++ [' '] ++ T.shown q.pre ++ suffixes.headD []

/-- The value of a non-empty string of digits. -/
def digits (acc : Nat) : Str → Option Nat
  | [] => some acc
  | c :: s => if isDigit c then digits (acc * 10 + (c.toNat - 48)) s else none

/-- At least one digit, no overflow. -/
def parseBody (s : Str) : Option Nat :=
  if s = [] then none
  else match digits 0 s with
    | some v => if v ≤ u64Max then some v else none
    | none => none

/-- `str::parse::<u64>`: an optional `+`, then at least one digit, no overflow. -/
def parseU64 (s : Str) : Option Nat :=
  if s.head? = some '+' then parseBody s.tail else parseBody s

/-- `str::trim_end`. -/
def trimEnd (s : Str) : Str := (s.reverse.dropWhile isWs).reverse

/-- `str::trim`. -/
def trim (s : Str) : Str := trimEnd (s.dropWhile isWs)

/-- `str::strip_suffix`. -/
def stripSuffix (s suf : Str) : Option Str :=
  if suf.isSuffixOf s then some (s.take (s.length - suf.length)) else none

/-- `[+-]?` -/
def signOf (s : Str) : Str :=
  if s.head? = some '+' then ['+'] else if s.head? = some '-' then ['-'] else []

def isNumChar (c : Char) : Bool := isDigit c || c = '.'

/-- units.rs:401-407: the two groups of the match; `none` if the expression does not match. -/
def captures (s : Str) : Option (Str × Str) :=
  let r := s.drop (signOf s).length
  let rest := (r.dropWhile isNumChar).dropWhile isWs
  if '\n' ∈ rest then none else some (signOf s ++ r.takeWhile isNumChar, rest)

/-- `T::from_str`. -/
def parsePrefix (T : PrefixType P) (s : Str) : Option P := T.all.find? (fun p => s ∈ T.names p)

/-- units.rs:400-428, `from_str`; `none` is any error. -/
def parse (T : PrefixType P) (suffixes : List Str) (s : Str) : Option (Qty P) :=
  match captures s with
  | none => none
  | some (num, rest) =>
    let value := trim num
    let unit := trim rest
    let pre := (suffixes.findSome? (stripSuffix unit)).getD unit
    match (if pre = [] then some T.dflt else parsePrefix T pre) with
    | none => none
    | some p => match parseU64 value with
      | none => none
      | some v => some ⟨v, p⟩

end Shadow.Units
