import Verif.Time.Model
import Verif.Base.Panic
/-!
# From the configuration file and the command line to the hosts of a simulation

Source: `ConfigOptions::new`, the option structures and `NullableOption` in `/repo/src/main/core/configuration.rs:88-340, 585-730, 1207-1318`, `HostName` (780-841), and
`SimConfig::new`, `build_host` and `build_process` in `/repo/src/main/core/sim_config.rs:46-393` up to the addresses and routes (for which see C20 and C71).

Trusted: serde and clap fill the fields as their attributes say (a field that is absent gets its default, `null` is `None`), and the derived `Merge` goes field by field.

Simplifications: of the general options those that are needed here are represented, the others are merged in the same way. Quantities are in their smallest unit
(nanoseconds, bits, bytes; for the units see C46). Parsing arguments in shell notation, finding programs, the hash of a name and the random generator are parameters; a file
that was found once is found again, so the memory of found files is left out. Socket buffers and the like, which are the same for all hosts, are left out.
-/
namespace Shadow.Config

open Shadow.Base

/-! ## Fields and where they come from -/

/-- A field in the file. -/
inductive InFile (T : Type) where
  | absent
  | null
  | val (v : T)
deriving DecidableEq, Repr

/-- `NullableOption` (configuration.rs:1241-1244). -/
inductive Nullable (T : Type) where
  | value (v : T)
  | null
deriving DecidableEq, Repr

/-- A field of type `Option<T>`, with its default (for example configuration.rs:238-239). -/
def readField {T : Type} (default : Option T) : InFile T → Option T
  | .absent => default
  | .null => none
  | .val v => some v

/-- A field of type `Option<NullableOption<T>>` (configuration.rs:1282-1287). -/
def readNullable {T : Type} (default : Option (Nullable T)) : InFile T → Option (Nullable T)
  | .absent => default
  | .null => none
  | .val v => some (.value v)

/-- `merge::option::overwrite_none`, by which fields are merged (configuration.rs:229, 594). -/
def merge {T : Type} (a b : Option T) : Option T :=
  match a with
  | some x => some x
  | none => b

/-- `flatten` (configuration.rs:1310-1313). -/
def flatten {T : Type} : Option (Nullable T) → Option T
  | some (.value v) => some v
  | some .null => none
  | none => none

/-! ## The options -/

/-- `HostDefaultOptions` (configuration.rs:595-611). -/
structure HostOpts where
  logLevel : Option (Nullable Nat)
  pcapEnabled : Option Bool
  captureSize : Option Nat
deriving DecidableEq, Repr

/-- `HostDefaultOptions` in the file; absent fields are `None` (configuration.rs:592, 633-646). -/
structure HostOptsFile where
  logLevel : InFile Nat
  pcapEnabled : InFile Bool
  captureSize : InFile Nat
deriving DecidableEq, Repr

def HostOptsFile.read (f : HostOptsFile) : HostOpts := ⟨readNullable none f.logLevel, readField none f.pcapEnabled, readField none f.captureSize⟩

/-- `HostDefaultOptions::new_with_defaults` (configuration.rs:614-623). -/
def builtin : HostOpts := ⟨none, some false, some 65535⟩

/-- `HostDefaultOptions::with_defaults` (configuration.rs:626-629). -/
def HostOpts.withDefaults (a b : HostOpts) : HostOpts := ⟨merge a.logLevel b.logLevel, merge a.pcapEnabled b.pcapEnabled, merge a.captureSize b.captureSize⟩

inductive Args where
  | list (l : List String)
  | str (s : String)
deriving DecidableEq, Repr

/-- `ProcessOptions` (configuration.rs:688-717). -/
structure ProcOpts where
  path : String
  args : Args
  start : Nat
  shutdown : Option Nat
deriving DecidableEq, Repr

/-- `HostOptions` (configuration.rs:719-741). -/
structure HostFile where
  node : Nat
  procs : List ProcOpts
  down : Option Nat
  up : Option Nat
  opts : HostOptsFile
deriving DecidableEq, Repr

/-- `ConfigFileOptions` (configuration.rs:88-109). The hosts are in the order of their names, which are all different. -/
structure FileOpts where
  stop : InFile Nat
  seed : InFile Nat
  defaults : HostOptsFile
  hosts : List (String × HostFile)
deriving DecidableEq, Repr

/-- `CliOptions` (configuration.rs:52-86). -/
structure Cli where
  stop : Option Nat
  seed : Option Nat
  defaults : HostOpts
deriving DecidableEq, Repr

structure HostConf where
  node : Nat
  procs : List ProcOpts
  down : Option Nat
  up : Option Nat
  opts : HostOpts
deriving DecidableEq, Repr

/-- `ConfigOptions` (configuration.rs:111-122). -/
structure Conf where
  stop : Option Nat
  seed : Option Nat
  hosts : List (String × HostConf)
deriving DecidableEq, Repr

/-- `ConfigOptions::new` (configuration.rs:125-154). The default of the seed is 1 (line 238), the time to stop has none. -/
def conf (f : FileOpts) (c : Cli) : Conf :=
  let defaults := f.defaults.read.withDefaults builtin
  let defaults := c.defaults.withDefaults defaults
  ⟨merge c.stop (readField none f.stop), merge c.seed (readField (some 1) f.seed),
    f.hosts.map fun (name, h) => (name, ⟨h.node, h.procs, h.down, h.up, h.opts.read.withDefaults defaults⟩)⟩

/-! ## Names of hosts -/

/-- (configuration.rs:803-805). -/
def allowed (c : Char) : Bool := ('a' ≤ c && c ≤ 'z') || ('0' ≤ c && c ≤ '9') || c = '-' || c = '.'

/-- Whether a name is taken (configuration.rs:797-828). -/
def hostName (v : List Char) : Bool :=
  if v.any (fun c => !allowed c) then false
  else if v = [] then false
  else if v.head? = some '-' then false
  else if v.length > 253 then false
  else true

/-! ## Hosts -/

/-- What the configuration is refused for. -/
inductive Err where
  | start
  | startShutdown
  | shutdown
  | args
  | path
  | noHosts
  | node
  | bandwidth
  | debug
deriving DecidableEq, Repr

/-- What the code around gives. -/
structure World where
  /-- `parse_string_as_args` after `trim` -/
  parse : String → Option (List String)
  /-- `tilde_expansion` -/
  expand : String → String
  /-- finding and checking a program (sim_config.rs:350-371) -/
  find : String → Option String
  /-- the hash of a name (sim_config.rs:218-222) -/
  hash : String → Nat
  /-- the first number of the random generator (sim_config.rs:51-54) -/
  random : Nat → Nat
  /-- the bandwidths (down and up, in bits) of a node of the graph, if there is such a node -/
  node : Nat → Option (Option Nat × Option Nat)

/-- `ProcessInfo` (sim_config.rs:169-178). -/
structure ProcInfo where
  plugin : String
  start : Nat
  shutdown : Option Nat
  args : List String
deriving DecidableEq, Repr

/-- `HostInfo` (sim_config.rs:148-167). -/
structure HostInfo where
  name : String
  procs : List ProcInfo
  seed : Nat
  node : Nat
  pause : Bool
  down : Option Nat
  up : Option Nat
  logLevel : Option Nat
  pcap : Option Nat
deriving DecidableEq, Repr

/-- `Duration::from` and `try_into().unwrap()` (sim_config.rs:296-301). -/
def simTime (nanos : Nat) : R Nat := R.unwrap (Shadow.Time.Sim.tryFromDuration nanos)

def simTimeO : Option Nat → R (Option Nat)
  | none => .ok none
  | some t => do
    let t ← simTime t
    .ok (some t)

/-- `convert(..Base).unwrap()` (for example sim_config.rs:244-246). -/
def base (v : Nat) : R Nat := if v < 2 ^ 64 then .ok v else .panic

def baseO : Option Nat → R (Option Nat)
  | none => .ok none
  | some t => do
    let t ← base t
    .ok (some t)

/-- The rest of `build_process`, after the times (sim_config.rs:329-393). -/
def procRest (w : World) (p : ProcOpts) (start : Nat) (shutdown : Option Nat) : Err ⊕ ProcInfo :=
  match (match p.args with | .list l => some l | .str s => w.parse s) with
  | none => .inl .args
  | some args =>
    match w.find (w.expand p.path) with
    | none => .inl .path
    | some plugin => .inr ⟨plugin, start, shutdown, w.expand p.path :: args⟩

/-- The checks of times (sim_config.rs:303-327). -/
def timesBad (start : Nat) (shutdown : Option Nat) (stop : Nat) : Option Err :=
  if start ≥ stop then some .start
  else match shutdown with
    | none => none
    | some t => if start ≥ t then some .startShutdown else if t ≥ stop then some .shutdown else none

/-- `build_process` (sim_config.rs:295-393). -/
def buildProc (w : World) (stop : Option Nat) (p : ProcOpts) : R (Err ⊕ ProcInfo) := do
  let start ← simTime p.start
  let shutdown ← simTimeO p.shutdown
  let stop ← R.unwrap stop
  let stop ← simTime stop
  match timesBad start shutdown stop with
  | some e => .ok (.inl e)
  | none => .ok (procRest w p start shutdown)

/-- All of a list, or the first error. -/
def all {A B : Type} (f : A → R (Err ⊕ B)) : List A → R (Err ⊕ List B)
  | [] => .ok (.inr [])
  | a :: l => do
    match ← f a with
    | .inl e => .ok (.inl e)
    | .inr b =>
      match ← all f l with
      | .inl e => .ok (.inl e)
      | .inr bs => .ok (.inr (b :: bs))

/-- The rest of `build_host`, after the processes (sim_config.rs:235-291). -/
def hostRest (w : World) (rand : Nat) (debug : List String) (name : String) (h : HostConf) (procs : List ProcInfo) : R HostInfo := do
  let down ← baseO h.down
  let up ← baseO h.up
  let enabled ← R.unwrap h.opts.pcapEnabled
  -- the argument of `then_some` is computed in any case
  let size ← R.unwrap h.opts.captureSize
  let size ← base size
  .ok ⟨name, procs, rand ^^^ w.hash name, h.node, debug.contains name, down, up, flatten h.opts.logLevel, if enabled then some size else none⟩

/-- `build_host` (sim_config.rs:208-292). -/
def buildHost (w : World) (rand : Nat) (debug : List String) (stop : Option Nat) (nh : String × HostConf) : R (Err ⊕ HostInfo) := do
  match ← all (buildProc w stop) nh.2.procs with
  | .inl e => .ok (.inl e)
  | .inr procs =>
    let i ← hostRest w rand debug nh.1 nh.2 procs
    .ok (.inr i)

/-- The bandwidth of a host (sim_config.rs:96-123). -/
def bandwidth (w : World) (h : HostInfo) : R (Err ⊕ HostInfo) := do
  let n ← R.unwrap (w.node h.node)
  let gd ← baseO n.1
  let gu ← baseO n.2
  let down := merge h.down gd
  let up := merge h.up gu
  if down.isNone || up.isNone then .ok (.inl .bandwidth)
  else .ok (.inr { h with down := down, up := up })

/-- `SimConfig::new` up to the addresses (sim_config.rs:47-132). -/
def sim (w : World) (c : Conf) (debug : List String) : R (Err ⊕ List HostInfo) := do
  let seed ← R.unwrap c.seed
  match ← all (buildHost w (w.random seed) debug c.stop) c.hosts with
  | .inl e => .ok (.inl e)
  | .inr hosts =>
    if hosts = [] then .ok (.inl .noHosts)
    else if hosts.any (fun h => (w.node h.node).isNone) then .ok (.inl .node)
    else
      match ← all (bandwidth w) hosts with
      | .inl e => .ok (.inl e)
      | .inr hosts =>
        if debug.any (fun d => !hosts.any (fun h => h.name = d)) then .ok (.inl .debug)
        else .ok (.inr hosts)

end Shadow.Config
