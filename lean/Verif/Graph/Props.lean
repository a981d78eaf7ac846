import Verif.Graph.Lem
/-!
# C71: paths between the nodes of the network graph

`generate` computes the routing of a simulation from the graph and the nodes that hosts use.  The statements speak of the edges as they are written in the file
(`between`, `Walk`, `Best`).
-/

namespace Shadow.Graph
open Shadow.Base

/-- **C71** (parsing).  A graph is accepted exactly if every node has an identifier, and every edge has a loss from 0 to 1, a latency above 0, and ends at nodes of
the graph. -/
theorem C71_parse (g : Gml) : (∃ n, parse g = .ok n) ↔
    none ∉ g.nodes ∧ ∀ e ∈ g.edges, 0 ≤ e.loss ∧ e.loss ≤ 1 ∧ 0 < e.lat ∧ some e.src ∈ g.nodes ∧ some e.dst ∈ g.nodes := by
  constructor
  · rintro ⟨n, h⟩
    have p := parse_ok h
    refine ⟨by rw [p.nodes]; simp, ?_⟩
    have : ∀ {l m}, Match n.ids l m → ∀ e ∈ l, 0 ≤ e.loss ∧ e.loss ≤ 1 ∧ 0 < e.lat ∧ some e.src ∈ g.nodes ∧ some e.dst ∈ g.nodes := by
      intro l m hm
      induction hm with
      | nil => simp
      | cons h1 h2 h3 hs hd _ ih =>
        intro e he
        rcases List.mem_cons.1 he with rfl | he
        · have := List.mem_of_getElem? (index_get hs)
          have := List.mem_of_getElem? (index_get hd)
          rw [p.nodes]
          simp_all
        · exact ih e he
    exact this p.es
  · rintro ⟨h1, h2⟩
    have : ∀ l : List (Option Nat), none ∉ l → ∃ ids : List Nat, l = ids.map some := by
      intro l
      induction l with
      | nil => exact fun _ => ⟨[], rfl⟩
      | cons x l ih =>
        intro h
        simp at h
        obtain ⟨ids, q⟩ := ih h.2
        cases x with
        | none => simp at h
        | some i => exact ⟨i :: ids, by simp [q]⟩
    obtain ⟨ids, hi⟩ := this _ h1
    obtain ⟨m, hm⟩ := parseEdges_of (ids := ids) (l := g.edges) (fun e he => by
      have := h2 e he
      rw [hi] at this
      simpa using this)
    refine ⟨⟨g.directed, ids, m⟩, ?_⟩
    simp only [parse, parseNodes_ok.2 hi, bind, Except.bind, hm]

/-- The hypotheses on the nodes in use: a set, and all of them exist (checked in `SimConfig::new`, sim_config.rs:84-92). -/
structure Uses (g : Gml) (used : List Nat) : Prop where
  nodup : used.Nodup
  exist : ∀ i ∈ used, some i ∈ g.nodes

theorem Uses.mem {g : Gml} {n : Net} {used : List Nat} (p : Parsed g n) (u : Uses g used) : ∀ i ∈ used, i ∈ n.ids := by
  intro i hi
  have := u.exist i hi
  rw [p.nodes] at this
  simpa using this

/-- **C71** (shortest paths).  With `use_shortest_path`: if a node in use does not have exactly one self-loop, there is an error.  Otherwise, if the nodes in use cannot all reach
each other, Shadow panics.  Otherwise the path of a node to itself is its self-loop, the path between two nodes is a walk of the lowest latency, with the lowest
loss among those, and there are no other paths. -/
theorem C71_shortest {g : Gml} {n : Net} {used : List Nat} (r : Rounding) (lib : Lib) (h : parse g = .ok n) (u : Uses g used) :
    match generate r lib n used true with
    | .panic => (∀ a ∈ used, (between g a a).length = 1) ∧ ∃ a ∈ used, ∃ b ∈ used, ∀ c, ¬ Walk r g a b c
    | .ok (.error _) => ∃ a ∈ used, (between g a a).length ≠ 1
    | .ok (.ok i) =>
      (∀ a ∈ used, ∃ e, between g a a = [e] ∧ i.path a a = some e.path) ∧
      (∀ a ∈ used, ∀ b ∈ used, a ≠ b → ∃ c, i.path a b = some c ∧ Best r g a b c) ∧
      (∀ a b, (i.path a b).isSome = true → a ∈ used ∧ b ∈ used) := by
  have p := parse_ok h
  have mem := u.mem p
  have ok := parsed_net_ok p
  have nd := ix_nodup mem u.nodup
  simp only [generate, allSome_ok mem, R.bind_ok, if_true]
  unfold shortest
  simp only
  rcases selfLoops_spec n (used.map (ix n)) (fun a b => if (used.map (ix n)).contains a && (used.map (ix n)).contains b then (dijkstra r lib n a).scores b else none) nd
    (fun m hm => by
      have : (used.map (ix n)).contains m = true := by simpa using hm
      simp only [this, Bool.and_self, if_true]
      exact (dijkstra_inv r lib ok m).1.src) with ⟨x, h1, m, hm, y, h2⟩ | ⟨p', h1, h2, h3⟩
  · rw [h1]
    obtain ⟨a, ha, rfl⟩ := List.mem_map.1 hm
    exact ⟨a, ha, edgeWeight_err p (mem a ha) (mem a ha) h2⟩
  · rw [h1]
    have val : ∀ a ∈ used, ∀ b ∈ used, a ≠ b → p' (ix n a) (ix n b) = (dijkstra r lib n (ix n a)).scores (ix n b) := by
      intro a ha b hb ne
      rw [h3 _ _ (fun q => ne (ix_inj (mem a ha) (mem b hb) q.1))]
      have q1 : (used.map (ix n)).contains (ix n a) = true := by simpa using ⟨a, ha, rfl⟩
      have q2 : (used.map (ix n)).contains (ix n b) = true := by simpa using ⟨b, hb, rfl⟩
      simp only [q1, q2, Bool.and_self, if_true]
    have self : ∀ a ∈ used, ∃ e, between g a a = [e] ∧ p' (ix n a) (ix n a) = some e.path := by
      intro a ha
      obtain ⟨w, k1, k2⟩ := h2 (ix n a) (List.mem_map.2 ⟨a, ha, rfl⟩)
      obtain ⟨e, k3, k4⟩ := (edgeWeight_ok p (mem a ha) (mem a ha)).1 k1
      exact ⟨e, k3, by rw [k2, k4]⟩
    simp only [R.bind_ok]
    cases full : ((entries (used.map (ix n)) p').length == (used.map (ix n)).length ^ 2) with
    | false =>
      have q := mt (entries_full p' (used.map (ix n))).2 (by rw [full]; simp)
      simp only [R.assert]
      refine ⟨fun a ha => ?_, ?_⟩
      · obtain ⟨e, k, _⟩ := self a ha
        rw [k]; rfl
      · simp only [Classical.not_forall] at q
        obtain ⟨x, hx, y, hy, q⟩ := q
        obtain ⟨a, ha, rfl⟩ := List.mem_map.1 hx
        obtain ⟨b, hb, rfl⟩ := List.mem_map.1 hy
        refine ⟨a, ha, b, hb, fun c w => q ?_⟩
        by_cases e : a = b
        · subst e
          obtain ⟨e, _, k⟩ := self a ha
          rw [k]; rfl
        · rw [val a ha b hb e, dijkstra_some r lib ok]
          exact ⟨c, (walk_iff p (ix_eq (mem a ha))).2 ⟨b, ix_eq (mem b hb), w⟩⟩
    | true =>
      have q := (entries_full p' (used.map (ix n))).1 full
      simp only [R.assert, if_true, R.bind_ok, entries]
      rw [toIds_grid mem mem]
      simp only [R.bind_ok]
      have look : ∀ a b, (Routing.mk (used.flatMap fun a => used.filterMap fun b => (p' (ix n a) (ix n b)).map fun c => ((a, b), c))).path a b =
          if a ∈ used ∧ b ∈ used then p' (ix n a) (ix n b) else none := by
        intro a b
        exact lookup_grid (fun a b => p' (ix n a) (ix n b)) a b used used
      refine ⟨fun a ha => ?_, fun a ha b hb ne => ?_, fun a b k => ?_⟩
      · obtain ⟨e, k1, k2⟩ := self a ha
        exact ⟨e, k1, by rw [look, if_pos ⟨ha, ha⟩, k2]⟩
      · obtain ⟨c, hc⟩ := Option.isSome_iff_exists.1 (q _ (List.mem_map.2 ⟨a, ha, rfl⟩) _ (List.mem_map.2 ⟨b, hb, rfl⟩))
        refine ⟨c, by rw [look, if_pos ⟨ha, hb⟩, hc], ?_⟩
        rw [val a ha b hb ne, dijkstra_spec r lib ok] at hc
        obtain ⟨b', hb', w⟩ := (walk_iff p (ix_eq (mem a ha))).1 hc.1
        cases index_inj hb' (ix_eq (mem b hb))
        exact ⟨w, fun c' w' => hc.2 c' ((walk_iff p (ix_eq (mem a ha))).2 ⟨b, ix_eq (mem b hb), w'⟩)⟩
      · rw [look] at k
        split at k
        · assumption
        · simp at k

/-- **C71** (direct paths).  Without `use_shortest_path`: there is an error if some pair of nodes in use is not joined by exactly one edge; otherwise the path is this edge. -/
theorem C71_direct {g : Gml} {n : Net} {used : List Nat} (r : Rounding) (lib : Lib) (h : parse g = .ok n) (u : Uses g used) :
    match generate r lib n used false with
    | .panic => False
    | .ok (.error _) => ∃ a ∈ used, ∃ b ∈ used, (between g a b).length ≠ 1
    | .ok (.ok i) =>
      (∀ a ∈ used, ∀ b ∈ used, ∃ e, between g a b = [e] ∧ i.path a b = some e.path) ∧
      (∀ a b, (i.path a b).isSome = true → a ∈ used ∧ b ∈ used) := by
  have p := parse_ok h
  have mem := u.mem p
  simp only [generate, allSome_ok mem, R.bind_ok, Bool.false_eq_true, if_false]
  unfold direct
  rcases directAll_spec n ((used.map (ix n)).flatMap fun a => (used.map (ix n)).map fun b => (a, b)) with ⟨x, h1, m, hm, y, h2⟩ | ⟨h1, h2⟩
  · rw [h1]
    simp only [List.mem_flatMap, List.mem_map] at hm
    obtain ⟨_, ⟨a, ha, rfl⟩, _, ⟨b, hb, rfl⟩, rfl⟩ := hm
    exact ⟨a, ha, b, hb, edgeWeight_err p (mem a ha) (mem b hb) h2⟩
  · rw [h1]
    have one : ∀ a ∈ used, ∀ b ∈ used, ∃ e, between g a b = [e] ∧
        (if (used.map (ix n)).contains (ix n a) && (used.map (ix n)).contains (ix n b) then weightOf n (ix n a) (ix n b) else none) = some e.path := by
      intro a ha b hb
      obtain ⟨w, k⟩ := h2 (ix n a, ix n b) (List.mem_flatMap.2 ⟨ix n a, List.mem_map.2 ⟨a, ha, rfl⟩, List.mem_map.2 ⟨ix n b, List.mem_map.2 ⟨b, hb, rfl⟩, rfl⟩⟩)
      obtain ⟨e, k1, k2⟩ := (edgeWeight_ok p (mem a ha) (mem b hb)).1 k
      have q1 : (used.map (ix n)).contains (ix n a) = true := by simpa using ⟨a, ha, rfl⟩
      have q2 : (used.map (ix n)).contains (ix n b) = true := by simpa using ⟨b, hb, rfl⟩
      refine ⟨e, k1, ?_⟩
      simp only [q1, q2, Bool.and_self, if_true, weightOf]
      simp only at k
      rw [k, k2]
    simp only
    rw [(entries_full _ _).2 (by
      intro x hx y hy
      obtain ⟨a, ha, rfl⟩ := List.mem_map.1 hx
      obtain ⟨b, hb, rfl⟩ := List.mem_map.1 hy
      obtain ⟨e, _, k⟩ := one a ha b hb
      rw [k]; rfl)]
    simp only [R.assert, if_true, R.bind_ok, entries]
    rw [toIds_grid mem mem]
    simp only [R.bind_ok]
    have look := fun a b => lookup_grid (fun a b =>
      if (used.map (ix n)).contains (ix n a) && (used.map (ix n)).contains (ix n b) then weightOf n (ix n a) (ix n b) else none) a b used used
    refine ⟨fun a ha b hb => ?_, fun a b k => ?_⟩
    · obtain ⟨e, k1, k2⟩ := one a ha b hb
      refine ⟨e, k1, ?_⟩
      rw [Routing.path, look, if_pos ⟨ha, hb⟩, k2]
    · rw [Routing.path, look] at k
      split at k
      · assumption
      · simp at k

/-! ## What follows -/

/-- The facts of `C71_shortest` for a successful computation. -/
theorem shortest_facts {g : Gml} {n : Net} {used : List Nat} {r : Rounding} {lib : Lib} (h : parse g = .ok n) (u : Uses g used) {i : Routing}
    (e : generate r lib n used true = .ok (.ok i)) :
    (∀ a ∈ used, ∃ e, between g a a = [e] ∧ i.path a a = some e.path) ∧
      (∀ a ∈ used, ∀ b ∈ used, a ≠ b → ∃ c, i.path a b = some c ∧ Best r g a b c) ∧
      (∀ a b, (i.path a b).isSome = true → a ∈ used ∧ b ∈ used) := by
  have := C71_shortest r lib h u
  rw [e] at this
  exact this

/-- **C71** (determinism).  The paths do not depend on the order of the set of nodes, on the order in which edges are visited, nor on the order in which the heap yields
entries of equal cost. -/
theorem C71_deterministic {g : Gml} {n : Net} {used used' : List Nat} {r : Rounding} {lib lib' : Lib} (h : parse g = .ok n) (u : Uses g used)
    (same : used.Perm used') {i : Routing} (e : generate r lib n used true = .ok (.ok i)) :
    ∃ i', generate r lib' n used' true = .ok (.ok i') ∧ ∀ a b, i'.path a b = i.path a b := by
  obtain ⟨h1, h2, h3⟩ := shortest_facts h u e
  have u' : Uses g used' := ⟨same.nodup_iff.1 u.nodup, fun j hj => u.exist j (same.mem_iff.2 hj)⟩
  have key := C71_shortest r lib' h u'
  cases e' : generate r lib' n used' true with
  | panic =>
    rw [e'] at key
    obtain ⟨_, a, ha, b, hb, no⟩ := key
    rw [← same.mem_iff] at ha hb
    by_cases c : a = b
    · subst c; exact absurd .nil (no .zero)
    · obtain ⟨w, _, k⟩ := h2 a ha b hb c
      exact absurd k.walk (no w)
  | ok x =>
    cases x with
    | error x =>
      rw [e'] at key
      obtain ⟨a, ha, k⟩ := key
      obtain ⟨w, k1, _⟩ := h1 a (same.mem_iff.2 ha)
      rw [k1] at k
      simp at k
    | ok i' =>
      rw [e'] at key
      obtain ⟨k1, k2, k3⟩ := key
      refine ⟨i', rfl, fun a b => ?_⟩
      by_cases c : a ∈ used ∧ b ∈ used
      · obtain ⟨ca, cb⟩ := c
        by_cases d : a = b
        · subst d
          obtain ⟨x, x1, x2⟩ := h1 a ca
          obtain ⟨y, y1, y2⟩ := k1 a (same.mem_iff.1 ca)
          rw [x1] at y1
          cases y1
          rw [x2, y2]
        · obtain ⟨x, x1, x2⟩ := h2 a ca b cb d
          obtain ⟨y, y1, y2⟩ := k2 a (same.mem_iff.1 ca) b (same.mem_iff.1 cb) d
          rw [x1, y1, x2.unique y2]
      · have n1 : i.path a b = none := by
          cases q : i.path a b with
          | none => rfl
          | some x => exact absurd (h3 a b (by rw [q]; rfl)) c
        have n2 : i'.path a b = none := by
          cases q : i'.path a b with
          | none => rfl
          | some x => exact absurd ((k3 a b (by rw [q]; rfl)).imp same.mem_iff.2 same.mem_iff.2) c
        rw [n1, n2]

/-- Walks can be joined; latencies add up. -/
theorem Walk.append {r : Rounding} {g : Gml} {a b : Nat} {c : Path} (h : Walk r g a b c) {d : Nat} {c' : Path} (k : Walk r g b d c') :
    ∃ c'', Walk r g a d c'' ∧ c''.lat = c.lat + c'.lat := by
  induction k with
  | nil => exact ⟨c, h, by simp [Path.zero]⟩
  | snoc _ m ih =>
    obtain ⟨x, h1, h2⟩ := ih
    exact ⟨_, .snoc h1 m, by simp only [Path.add, h2]; omega⟩

/-- In an undirected graph walks can be turned round. -/
theorem Walk.reverse {r : Rounding} {g : Gml} (ud : g.directed = false) {a b : Nat} {c : Path} (h : Walk r g a b c) :
    ∃ c', Walk r g b a c' ∧ c'.lat = c.lat := by
  induction h with
  | nil => exact ⟨_, .nil, rfl⟩
  | @snoc v t c e _ m ih =>
    obtain ⟨x, h1, h2⟩ := ih
    have m' : e ∈ between g t v := by
      simp only [between, List.mem_filter, Edge.joins, ud, Bool.or_eq_true, Bool.and_eq_true, beq_iff_eq, Bool.not_false, true_and] at m ⊢
      exact ⟨m.1, m.2.symm.imp (fun q => q) (fun q => q)⟩
    obtain ⟨y, k1, k2⟩ := (Walk.snoc (r := r) .nil m').append h1
    exact ⟨y, k1, by rw [k2, h2]; simp only [Path.add, Path.zero]; omega⟩

/-- **C71** (symmetry).  In an undirected graph the latency is the same in both directions. -/
theorem C71_symmetric {g : Gml} {n : Net} {used : List Nat} {r : Rounding} {lib : Lib} (h : parse g = .ok n) (u : Uses g used) {i : Routing}
    (e : generate r lib n used true = .ok (.ok i)) (ud : g.directed = false) {a b : Nat} {c : Path} (k : i.path a b = some c) :
    ∃ c', i.path b a = some c' ∧ c'.lat = c.lat := by
  obtain ⟨h1, h2, h3⟩ := shortest_facts h u e
  obtain ⟨ha, hb⟩ := h3 a b (by rw [k]; rfl)
  by_cases d : a = b
  · subst d; exact ⟨c, k, rfl⟩
  · obtain ⟨x, x1, x2⟩ := h2 a ha b hb d
    obtain ⟨y, y1, y2⟩ := h2 b hb a ha (Ne.symm d)
    rw [k] at x1
    cases x1
    obtain ⟨x', w1, e1⟩ := x2.walk.reverse ud
    obtain ⟨y', w2, e2⟩ := y2.walk.reverse ud
    refine ⟨y, y1, ?_⟩
    have := y2.least _ w1
    have := x2.least _ w2
    omega

/-- **C71** (triangle).  A detour over a third node is not faster. -/
theorem C71_triangle {g : Gml} {n : Net} {used : List Nat} {r : Rounding} {lib : Lib} (h : parse g = .ok n) (u : Uses g used) {i : Routing}
    (e : generate r lib n used true = .ok (.ok i)) {a b d : Nat} (ab : a ≠ b) (bd : b ≠ d) (ad : a ≠ d) {x y z : Path} (hx : i.path a b = some x)
    (hy : i.path b d = some y) (hz : i.path a d = some z) : z.lat ≤ x.lat + y.lat := by
  obtain ⟨h1, h2, h3⟩ := shortest_facts h u e
  obtain ⟨ha, hb⟩ := h3 a b (by rw [hx]; rfl)
  obtain ⟨_, hd⟩ := h3 b d (by rw [hy]; rfl)
  obtain ⟨x', x1, x2⟩ := h2 a ha b hb ab
  obtain ⟨y', y1, y2⟩ := h2 b hb d hd bd
  obtain ⟨z', z1, z2⟩ := h2 a ha d hd ad
  rw [hx] at x1; rw [hy] at y1; rw [hz] at z1
  cases x1; cases y1; cases z1
  obtain ⟨w, k1, k2⟩ := x2.walk.append y2.walk
  have := z2.least _ k1
  omega

theorem edge_ok {g : Gml} {n : Net} (h : parse g = .ok n) {a b : Nat} {e : Edge} (he : e ∈ between g a b) : 0 ≤ e.loss ∧ e.loss ≤ 1 ∧ 0 < e.lat := by
  have := ((C71_parse g).1 ⟨n, h⟩).2 e (List.mem_filter.1 he).1
  exact ⟨this.1, this.2.1, this.2.2.1⟩

/-- Between different nodes a walk takes time. -/
theorem Walk.pos {r : Rounding} {g : Gml} {n : Net} (h : parse g = .ok n) {a b : Nat} {c : Path} (w : Walk r g a b c) : a = b ∨ 0 < c.lat := by
  cases w with
  | nil => exact .inl rfl
  | snoc _ m => right; have := (edge_ok h m).2.2; simp only [Path.add, Edge.path]; omega

theorem Walk.loss {r : Rounding} {g : Gml} {n : Net} (h : parse g = .ok n) {a b : Nat} {c : Path} (w : Walk r g a b c) : 0 ≤ c.loss ∧ c.loss ≤ 1 := by
  have unit : ∀ {x : Rat}, 0 ≤ x → x ≤ 1 → 0 ≤ r.f (1 - x) ∧ r.f (1 - x) ≤ 1 := by
    intro x h0 h1
    have a1 := r.mono ((Rat.le_iff_sub_nonneg _ _).1 h1)
    have a2 := r.mono (one_sub_mono h0)
    rw [r.zero] at a1
    rw [show (1 : Rat) - 0 = 1 by decide +kernel, r.one] at a2
    exact ⟨a1, a2⟩
  induction w with
  | nil => exact ⟨by decide +kernel, by decide +kernel⟩
  | @snoc v t c e _ m ih =>
    obtain ⟨e1, e2, _⟩ := edge_ok h m
    obtain ⟨p1, p2⟩ := unit ih.1 ih.2
    obtain ⟨q1, q2⟩ := unit e1 e2
    have s0 := r.mono (Rat.mul_nonneg p1 q1)
    have s1 := r.mono (Rat.mul_le_mul_of_nonneg_right p2 q1)
    rw [Rat.one_mul] at s1
    have s2 := r.mono q2
    rw [r.one] at s2
    rw [r.zero] at s0
    exact unit s0 (Rat.le_trans s1 s2)

/-- **C71** (range).  Every path takes time, and its loss is between 0 and 1. -/
theorem C71_range {g : Gml} {n : Net} {used : List Nat} {r : Rounding} {lib : Lib} {sp : Bool} (h : parse g = .ok n) (u : Uses g used) {i : Routing}
    (e : generate r lib n used sp = .ok (.ok i)) {a b : Nat} {c : Path} (k : i.path a b = some c) : 0 < c.lat ∧ 0 ≤ c.loss ∧ c.loss ≤ 1 := by
  have one : ∀ {x : Edge}, between g a b = [x] → i.path a b = some x.path → 0 < c.lat ∧ 0 ≤ c.loss ∧ c.loss ≤ 1 := by
    intro x q1 q2
    rw [k] at q2
    cases q2
    obtain ⟨k1, k2, k3⟩ := edge_ok h (a := a) (b := b) (e := x) (by rw [q1]; simp)
    exact ⟨k3, k1, k2⟩
  cases sp with
  | false =>
    have key := C71_direct r lib h u
    rw [e] at key
    obtain ⟨ha, hb⟩ := key.2 a b (by rw [k]; rfl)
    obtain ⟨x, q1, q2⟩ := key.1 a ha b hb
    exact one q1 q2
  | true =>
    obtain ⟨h1, h2, h3⟩ := shortest_facts h u e
    obtain ⟨ha, hb⟩ := h3 a b (by rw [k]; rfl)
    by_cases d : a = b
    · subst d
      obtain ⟨x, q1, q2⟩ := h1 a ha
      exact one q1 q2
    · obtain ⟨x, x1, x2⟩ := h2 a ha b hb d
      rw [k] at x1
      cases x1
      exact ⟨x2.walk.pos h |>.resolve_left d, x2.walk.loss h⟩

/-- The paths form a grid over the nodes in use. -/
theorem generate_grid {g : Gml} {n : Net} {used : List Nat} {r : Rounding} {lib : Lib} {sp : Bool} (h : parse g = .ok n) (u : Uses g used) {i : Routing}
    (e : generate r lib n used sp = .ok (.ok i)) :
    ∃ q : Paths, i.paths = used.flatMap fun a => used.filterMap fun b => (q a b).map fun c => ((a, b), c) := by
  have p := parse_ok h
  have mem := u.mem p
  unfold generate at e
  rw [allSome_ok mem, R.bind_ok] at e
  obtain ⟨x, h1, h2⟩ := R.bind_eq_ok.1 e
  cases x with
  | error x => simp at h2
  | ok q =>
    simp only [entries] at h2
    rw [toIds_grid mem mem, R.bind_ok] at h2
    cases h2
    exact ⟨fun a b => q (ix n a) (ix n b), rfl⟩

/-- **C71** (smallest latency).  The smallest latency, from which the length of rounds is computed, is that of some path, no path is faster, and it is above 0. -/
theorem C71_smallest {g : Gml} {n : Net} {used : List Nat} {r : Rounding} {lib : Lib} {sp : Bool} (h : parse g = .ok n) (u : Uses g used) (ne : used ≠ [])
    {i : Routing} (e : generate r lib n used sp = .ok (.ok i)) :
    ∃ m, i.smallest = some m ∧ 0 < m ∧ (∀ a b c, i.path a b = some c → m ≤ c.lat) ∧ ∃ a ∈ used, ∃ b ∈ used, ∃ c, i.path a b = some c ∧ c.lat = m := by
  obtain ⟨q, hq⟩ := generate_grid h u e
  have look : ∀ a b, i.path a b = if a ∈ used ∧ b ∈ used then q a b else none := by
    intro a b
    rw [Routing.path, hq]
    exact lookup_grid q a b used used
  have mem : ∀ a b c, ((a, b), c) ∈ i.paths ↔ i.path a b = some c := by
    intro a b c
    rw [look, hq]
    simp only [List.mem_flatMap, List.mem_filterMap, Option.map_eq_some_iff]
    constructor
    · rintro ⟨x, hx, y, hy, z, hz, k⟩
      cases k
      rw [if_pos ⟨hx, hy⟩, hz]
    · intro k
      split at k
      · rename_i w; exact ⟨a, w.1, b, w.2, c, k, rfl⟩
      · simp at k
  have some_path : ∃ a b c, i.path a b = some c := by
    obtain ⟨a, ha⟩ := List.exists_mem_of_ne_nil _ ne
    cases sp with
    | true => obtain ⟨x, _, k⟩ := (shortest_facts h u e).1 a ha; exact ⟨a, a, _, k⟩
    | false =>
      have key := C71_direct r lib h u
      rw [e] at key
      obtain ⟨x, _, k⟩ := key.1 a ha a ha
      exact ⟨a, a, _, k⟩
  obtain ⟨a0, b0, c0, k0⟩ := some_path
  cases hm : i.smallest with
  | none =>
    have : i.paths = [] := by simpa [Routing.smallest] using hm
    have k := (mem a0 b0 c0).2 k0
    rw [this] at k
    simp at k
  | some m =>
    obtain ⟨k1, k2⟩ := List.min?_eq_some_iff.1 hm
    obtain ⟨⟨⟨a, b⟩, c⟩, hx, rfl⟩ := List.mem_map.1 k1
    have hp := (mem a b c).1 hx
    have hu : a ∈ used ∧ b ∈ used := by
      rw [look] at hp
      split at hp
      · assumption
      · simp at hp
    exact ⟨c.lat, rfl, (C71_range h u e hp).1, fun x y z k => k2 _ (List.mem_map.2 ⟨_, (mem x y z).2 k, rfl⟩), a, hu.1, b, hu.2, c, hp, rfl⟩

end Shadow.Graph
