import Verif.Base.Panic
/-!
# Paths between the nodes of the network graph

Model of `/repo/src/main/network/graph/mod.rs` and of `generate_routing_info` in `/repo/src/main/core/sim_config.rs`.

Simplifications, valid for the whole file:
* The text of the graph is already parsed: a latency is a number of nanoseconds (`latency.convert(Nano)`, C43 and C46 are about units), a packet loss a rational number.
  Bandwidths and jitter (which Shadow does not use) are left out.
* Sums of latencies stay below `2^64` (584 years).
* The type `f32` is a set of rationals with a rounding function (`Rounding`): each operation computes the exact result and rounds it.  Of IEEE 754 only this is used: rounding is
  monotone and keeps 0 and 1.  `-0.0` is 0.
* `petgraph` is not part of the repository.  `dijkstra` follows the algorithm of `petgraph` 0.8.3 (`algo/dijkstra.rs`).  The order in which its heap yields entries of
  equal cost and the order in which the edges of a node are visited are arbitrary (`Lib`).
-/

namespace Shadow.Graph
open Shadow.Base

/-- Rounding of a rational to an `f32`. -/
structure Rounding where
  f : Rat → Rat
  mono : ∀ {a b : Rat}, a ≤ b → f a ≤ f b
  zero : f 0 = 0
  one : f 1 = 1

/-- `PathProperties` (mod.rs:310-316). -/
structure Path where
  lat : Nat
  loss : Rat
deriving DecidableEq

namespace Path

/-- `PathProperties::default()`. -/
def zero : Path := ⟨0, 0⟩

/-- `PathProperties::partial_cmp` (mod.rs:318-326) with the result `Less`. -/
def lt (a b : Path) : Bool := decide (a.lat < b.lat) || (a.lat == b.lat && decide (a.loss < b.loss))

/-- `PathProperties::eq` (mod.rs:328-333). -/
def eq (a b : Path) : Bool := a.lat == b.lat && decide (a.loss = b.loss)

/-- `PathProperties::add` (mod.rs:335-344). -/
def add (r : Rounding) (a b : Path) : Path :=
  ⟨a.lat + b.lat, r.f (1 - r.f (r.f (1 - a.loss) * r.f (1 - b.loss)))⟩

end Path

/-- A parsed edge: source and target are identifiers of the file (mod.rs:60-68). -/
structure Edge where
  src : Nat
  dst : Nat
  lat : Nat
  loss : Rat
deriving DecidableEq

/-- A parsed graph: the nodes are given by their identifiers, if there is one (gml.rs: `Gml`). -/
structure Gml where
  directed : Bool
  nodes : List (Option Nat)
  edges : List Edge

/-- `PathProperties::from(&ShadowEdge)` (mod.rs:346-353). -/
def Edge.path (e : Edge) : Path := ⟨e.lat, e.loss⟩

inductive Err where
  | noId | lossRange | latZero | noSource | noTarget | noEdge | manyEdges
deriving DecidableEq, Repr

/-- `NetworkGraph` (mod.rs:109-112): the identifiers of the nodes by index, and the edges between indexes. -/
structure Net where
  directed : Bool
  ids : List Nat
  es : List (Nat × Nat × Path)

/-- `node_id_to_index_map` (mod.rs:147-155): a later node with the same identifier replaces an earlier one. -/
def index (id : Nat) : List Nat → Option Nat
  | [] => none
  | x :: t =>
    match index id t with
    | some k => some (k + 1)
    | none => if x = id then some 0 else none

/-- The loop over the nodes in `NetworkGraph::parse` (mod.rs:150-155) with `ShadowNode::try_from` (mod.rs:31). -/
def parseNodes : List (Option Nat) → Except Err (List Nat)
  | [] => .ok []
  | none :: _ => .error .noId
  | some i :: t => do
    let r ← parseNodes t
    .ok (i :: r)

/-- The checks of `ShadowEdge::try_from` (mod.rs:95-103). -/
def checkEdge (e : Edge) : Except Err Unit :=
  if e.loss < 0 ∨ e.loss > 1 then .error .lossRange
  else if e.lat = 0 then .error .latZero
  else .ok ()

/-- The loop over the edges in `NetworkGraph::parse` (mod.rs:157-168). -/
def parseEdges (ids : List Nat) : List Edge → Except Err (List (Nat × Nat × Path))
  | [] => .ok []
  | e :: t => do
    checkEdge e
    match index e.src ids with
    | none => .error .noSource
    | some s =>
      match index e.dst ids with
      | none => .error .noTarget
      | some d =>
        let r ← parseEdges ids t
        .ok ((s, d, e.path) :: r)

/-- `NetworkGraph::parse` (mod.rs:127-174). -/
def parse (g : Gml) : Except Err Net := do
  let ids ← parseNodes g.nodes
  let es ← parseEdges ids g.edges
  .ok ⟨g.directed, ids, es⟩

/-- The edges as `petgraph` shows them: those of an undirected graph lead in both directions, a loop appears once. -/
def arcsOf (directed : Bool) : List (Nat × Nat × Path) → List (Nat × Nat × Path)
  | [] => []
  | (a, b, w) :: t =>
    if directed || a == b then (a, b, w) :: arcsOf directed t else (a, b, w) :: (b, a, w) :: arcsOf directed t

namespace Net

def arcs (g : Net) : List (Nat × Nat × Path) := arcsOf g.directed g.es

/-- `Graph::edges(v)` of `petgraph`: the targets with the weights. -/
def out (g : Net) (v : Nat) : List (Nat × Path) := (g.arcs.filter (fun e => e.1 == v)).map (·.2)

end Net

/-- What the algorithm leaves to the data structures: which of the cheapest entries the heap yields, and the order of the edges of a node. -/
structure Lib where
  pop : List (Path × Nat) → Option ((Path × Nat) × List (Path × Nat))
  pop_none : ∀ l, pop l = none ↔ l = []
  pop_perm : ∀ {l x r}, pop l = some (x, r) → l.Perm (x :: r)
  pop_min : ∀ {l x r}, pop l = some (x, r) → ∀ y ∈ l, y.1.lt x.1 = false
  edges : Net → Nat → List (Nat × Path)
  edges_perm : ∀ g v, (edges g v).Perm (g.out v)

/-- The state of `dijkstra`: visited nodes, scores, heap. -/
structure DS where
  vis : List Nat
  scores : Nat → Option Path
  heap : List (Path × Nat)

/-- The body of the loop over the edges of a node. -/
def relax1 (r : Rounding) (c : Path) (d : DS) (e : Nat × Path) : DS :=
  if d.vis.contains e.1 then d
  else
    let n := c.add r e.2
    match d.scores e.1 with
    | some o =>
      if n.lt o then { d with scores := fun u => if u = e.1 then some n else d.scores u, heap := (n, e.1) :: d.heap } else d
    | none => { d with scores := fun u => if u = e.1 then some n else d.scores u, heap := (n, e.1) :: d.heap }

/-- `petgraph::algo::dijkstra` without a goal; the first argument bounds the rounds (`fuel_enough` shows that the bound is not reached). -/
def loop (r : Rounding) (lib : Lib) (g : Net) : Nat → DS → DS
  | 0, d => d
  | n + 1, d =>
    match lib.pop d.heap with
    | none => d
    | some ((c, v), h) =>
      if d.vis.contains v then loop r lib g n { d with heap := h }
      else
        let d := (lib.edges g v).foldl (relax1 r c) { d with heap := h }
        loop r lib g n { d with vis := v :: d.vis }

/-- `petgraph::algo::dijkstra(graph, src, None, ..)`. -/
def dijkstra (r : Rounding) (lib : Lib) (g : Net) (src : Nat) : DS :=
  loop r lib g (g.arcs.length + 2) ⟨[], fun u => if u = src then some .zero else none, [(.zero, src)]⟩

namespace Net

/-- `get_edge_weight` (mod.rs:270-307). -/
def edgeWeight (g : Net) (a b : Nat) : Except Err Path :=
  match (g.out a).filter (fun e => e.1 == b) with
  | [] => .error .noEdge
  | [e] => .ok e.2
  | _ => .error .manyEdges

end Net

/-- A map whose keys are pairs of the given nodes. -/
abbrev Paths := Nat → Nat → Option Path

/-- The entries of such a map. -/
def entries (nodes : List Nat) (p : Paths) : List ((Nat × Nat) × Path) :=
  nodes.flatMap fun a => nodes.filterMap fun b => (p a b).map fun c => ((a, b), c)

/-- The loop that puts in the self-loops (mod.rs:208-215). -/
def selfLoops (g : Net) : List Nat → Paths → R (Except Err Paths)
  | [], p => .ok (.ok p)
  | n :: t, p =>
    match p n n with
    | none => .panic
    | some c =>
      if c.eq .zero then
        match g.edgeWeight n n with
        | .error e => .ok (.error e)
        | .ok w => selfLoops g t (fun a b => if a = n ∧ b = n then some w else p a b)
      else .panic

/-- `compute_shortest_paths` (mod.rs:176-226).  The nodes are distinct. -/
def shortest (r : Rounding) (lib : Lib) (g : Net) (nodes : List Nat) : R (Except Err Paths) := do
  let p : Paths := fun a b => if nodes.contains a && nodes.contains b then (dijkstra r lib g a).scores b else none
  match ← selfLoops g nodes p with
  | .error e => .ok (.error e)
  | .ok p => do
    R.assert ((entries nodes p).length == nodes.length ^ 2)
    .ok (.ok p)

/-- The pairs of `get_direct_paths` (mod.rs:234-239). -/
def directAll (g : Net) : List (Nat × Nat) → Except Err Unit
  | [] => .ok ()
  | (a, b) :: t =>
    match g.edgeWeight a b with
    | .error e => .error e
    | .ok _ => directAll g t

/-- The weight of an edge as an entry. -/
def weightOf (g : Net) (a b : Nat) : Option Path :=
  match g.edgeWeight a b with
  | .ok w => some w
  | .error _ => none

/-- `get_direct_paths` (mod.rs:228-251). -/
def direct (g : Net) (nodes : List Nat) : R (Except Err Paths) :=
  match directAll g (nodes.flatMap fun a => nodes.map fun b => (a, b)) with
  | .error e => .ok (.error e)
  | .ok _ => do
    let p : Paths := fun a b => if nodes.contains a && nodes.contains b then weightOf g a b else none
    R.assert ((entries nodes p).length == nodes.length ^ 2)
    .ok (.ok p)

/-- `RoutingInfo` (mod.rs:441-446): the paths by identifiers. -/
structure Routing where
  paths : List ((Nat × Nat) × Path)

/-- `RoutingInfo::path` (mod.rs:455-457). -/
def Routing.path (i : Routing) (a b : Nat) : Option Path := i.paths.lookup (a, b)

/-- `get_smallest_latency_ns` (mod.rs:484-486). -/
def Routing.smallest (i : Routing) : Option Nat := (i.paths.map (·.2.lat)).min?

/-- `unwrap` of every element. -/
def allSome : List (Option Nat) → R (List Nat)
  | [] => .ok []
  | none :: _ => .panic
  | some x :: t => do
    let r ← allSome t
    .ok (x :: r)

/-- The helper `to_ids` of `generate_routing_info` (sim_config.rs:423-427) on every entry. -/
def toIds (g : Net) : List ((Nat × Nat) × Path) → R (List ((Nat × Nat) × Path))
  | [] => .ok []
  | ((a, b), c) :: t =>
    match g.ids[a]?, g.ids[b]? with
    | some x, some y => do
      let r ← toIds g t
      .ok (((x, y), c) :: r)
    | _, _ => .panic

/-- `generate_routing_info` (sim_config.rs:410-448).  `used` is the set of the identifiers of the nodes of hosts in the order of a traversal. -/
def generate (r : Rounding) (lib : Lib) (g : Net) (used : List Nat) (useShortest : Bool) : R (Except Err Routing) := do
  let nodes ← allSome (used.map fun i => index i g.ids)
  match ← (if useShortest then shortest r lib g nodes else direct g nodes) with
  | .error e => .ok (.error e)
  | .ok p => do
    let l ← toIds g (entries nodes p)
    .ok (.ok ⟨l⟩)

end Shadow.Graph
