import Verif.Graph.Dijkstra
/-! # From the file to indexes and back -/

namespace Shadow.Graph
open Shadow.Base

/-! ## Specification: the graph as written in the file -/

/-- The edge leads from `a` to `b`; in an undirected graph also from `b` to `a`. -/
def Edge.joins (directed : Bool) (e : Edge) (a b : Nat) : Bool :=
  (e.src == a && e.dst == b) || (!directed && e.src == b && e.dst == a)

/-- The edges from `a` to `b`. -/
def between (g : Gml) (a b : Nat) : List Edge := g.edges.filter (fun e => e.joins g.directed a b)

/-- Walks along edges of the file.  Latencies add up; a packet gets through if it gets through on each edge, where every number is rounded. -/
inductive Walk (r : Rounding) (g : Gml) (a : Nat) : Nat → Path → Prop
  | nil : Walk r g a a .zero
  | snoc {v t : Nat} {c : Path} {e : Edge} : Walk r g a v c → e ∈ between g v t → Walk r g a t (c.add r e.path)

/-- A walk with the lowest latency, and with the lowest loss among those. -/
structure Best (r : Rounding) (g : Gml) (a b : Nat) (c : Path) : Prop where
  walk : Walk r g a b c
  least : ∀ c', Walk r g a b c' → c.lat < c'.lat ∨ (c.lat = c'.lat ∧ c.loss ≤ c'.loss)

theorem Best.unique {r : Rounding} {g : Gml} {a b : Nat} {c c' : Path} (h : Best r g a b c) (k : Best r g a b c') : c = c' :=
  Path.le_antisymm (h.least _ k.walk) (k.least _ h.walk)

/-! ## Indexes -/

theorem index_get {i : Nat} : ∀ {ids : List Nat} {k : Nat}, index i ids = some k → ids[k]? = some i
  | [], _, h => by simp [index] at h
  | x :: t, k, h => by
    simp only [index] at h
    split at h
    · rename_i j hj
      cases h
      simpa using index_get hj
    · split at h
      · rename_i e; cases h; simp [e]
      · simp at h

theorem index_inj {i j k : Nat} {ids : List Nat} (h : index i ids = some k) (h' : index j ids = some k) : i = j := by
  have := index_get h
  rw [index_get h'] at this
  simpa using this.symm

theorem index_some {i : Nat} : ∀ {ids : List Nat}, i ∈ ids → ∃ k, index i ids = some k
  | x :: t, h => by
    simp only [index]
    cases e : index i t with
    | some j => exact ⟨_, rfl⟩
    | none =>
      rcases List.mem_cons.1 h with q | q
      · exact ⟨0, by simp [q]⟩
      · obtain ⟨k, hk⟩ := index_some q; rw [hk] at e; cases e

theorem parseNodes_ok : ∀ {l : List (Option Nat)} {ids : List Nat}, parseNodes l = .ok ids ↔ l = ids.map some
  | [], ids => by cases ids <;> simp [parseNodes]
  | none :: l, ids => by cases ids <;> simp [parseNodes]
  | some i :: l, ids => by
    simp only [parseNodes]
    cases e : parseNodes l with
    | error x =>
      constructor
      · intro h; cases h
      · intro h
        cases ids with
        | nil => simp at h
        | cons y ys =>
          simp at h
          rw [parseNodes_ok.2 h.2] at e
          cases e
    | ok r =>
      have := parseNodes_ok.1 e
      subst this
      constructor
      · intro h; cases h; rfl
      · intro h
        cases ids with
        | nil => simp at h
        | cons y ys =>
          simp [List.map_inj_right] at h
          obtain ⟨rfl, rfl⟩ := h
          rfl

theorem checkEdge_ok {e : Edge} {u : Unit} : checkEdge e = .ok u ↔ 0 ≤ e.loss ∧ e.loss ≤ 1 ∧ 0 < e.lat := by
  unfold checkEdge
  split
  · rename_i h
    refine ⟨nofun, fun ⟨h1, h2, _⟩ => ?_⟩
    rcases h with h | h
    · exact absurd h (Rat.not_lt.2 h1)
    · exact absurd h (Rat.not_lt.2 h2)
  · rename_i h
    simp only [not_or, gt_iff_lt, Rat.not_lt] at h
    split
    · exact ⟨nofun, fun ⟨_, _, h⟩ => by omega⟩
    · exact ⟨fun _ => ⟨h.1, h.2, by omega⟩, fun _ => rfl⟩

/-- The edges of the file and those between indexes. -/
inductive Match (ids : List Nat) : List Edge → List (Nat × Nat × Path) → Prop
  | nil : Match ids [] []
  | cons {e : Edge} {s d : Nat} {l : List Edge} {m : List (Nat × Nat × Path)} : 0 ≤ e.loss → e.loss ≤ 1 → 0 < e.lat →
      index e.src ids = some s → index e.dst ids = some d → Match ids l m → Match ids (e :: l) ((s, d, e.path) :: m)

theorem parseEdges_ok {ids : List Nat} : ∀ {l : List Edge} {m : List (Nat × Nat × Path)}, parseEdges ids l = .ok m → Match ids l m
  | [], m, h => by simp [parseEdges] at h; subst h; exact .nil
  | e :: t, m, h => by
    simp only [parseEdges] at h
    cases c : checkEdge e with
    | error x => rw [c] at h; cases h
    | ok u =>
      obtain ⟨h1, h2, h3⟩ := checkEdge_ok.1 c
      rw [c] at h
      simp only [bind, Except.bind] at h
      split at h
      · cases h
      · rename_i s hs
        split at h
        · cases h
        · rename_i d hd
          split at h
          · cases h
          · rename_i r hr
            cases h
            exact .cons h1 h2 h3 hs hd (parseEdges_ok hr)

theorem parseEdges_of {ids : List Nat} : ∀ {l : List Edge}, (∀ e ∈ l, 0 ≤ e.loss ∧ e.loss ≤ 1 ∧ 0 < e.lat ∧ e.src ∈ ids ∧ e.dst ∈ ids) →
    ∃ m, parseEdges ids l = .ok m
  | [], _ => ⟨[], rfl⟩
  | e :: t, h => by
    obtain ⟨h1, h2, h3, h4, h5⟩ := h e (by simp)
    obtain ⟨m, hm⟩ := parseEdges_of (l := t) (fun x hx => h x (by simp [hx]))
    obtain ⟨s, hs⟩ := index_some h4
    obtain ⟨d, hd⟩ := index_some h5
    refine ⟨(s, d, e.path) :: m, ?_⟩
    simp only [parseEdges, checkEdge_ok (u := ()).2 ⟨h1, h2, h3⟩, bind, Except.bind, hs, hd, hm]

/-- What `parse` establishes. -/
structure Parsed (g : Gml) (n : Net) : Prop where
  dir : n.directed = g.directed
  nodes : g.nodes = n.ids.map some
  es : Match n.ids g.edges n.es

theorem parse_ok {g : Gml} {n : Net} (h : parse g = .ok n) : Parsed g n := by
  unfold parse at h
  cases e : parseNodes g.nodes with
  | error x => rw [e] at h; cases h
  | ok ids =>
    rw [e] at h
    simp only [bind, Except.bind] at h
    split at h
    · cases h
    · rename_i es he
      cases h
      exact ⟨rfl, parseNodes_ok.1 e, parseEdges_ok he⟩

theorem match_arcs {ids : List Nat} {dr : Bool} {l : List Edge} {m : List (Nat × Nat × Path)} (h : Match ids l m) {a b i j : Nat}
    (ha : index a ids = some i) (hb : index b ids = some j) :
    (((arcsOf dr m).filter (fun e => e.1 == i)).map (·.2)).filter (fun e => e.1 == j) =
      (l.filter (fun e => e.joins dr a b)).map (fun e => (j, e.path)) := by
  induction h with
  | nil => rfl
  | @cons e s d l m _ _ _ hs hd _ ih =>
    have q1 : (s == i) = (e.src == a) := by
      by_cases c : e.src = a
      · subst c; rw [hs] at ha; simp at ha; simp [ha]
      · have : s ≠ i := fun q => c (index_inj hs (q ▸ ha))
        rw [beq_eq_false_iff_ne.2 this, beq_eq_false_iff_ne.2 c]
    have q2 : (d == j) = (e.dst == b) := by
      by_cases c : e.dst = b
      · subst c; rw [hd] at hb; simp at hb; simp [hb]
      · have : d ≠ j := fun q => c (index_inj hd (q ▸ hb))
        rw [beq_eq_false_iff_ne.2 this, beq_eq_false_iff_ne.2 c]
    have q3 : (d == i) = (e.dst == a) := by
      by_cases c : e.dst = a
      · subst c; rw [hd] at ha; simp at ha; simp [ha]
      · have : d ≠ i := fun q => c (index_inj hd (q ▸ ha))
        rw [beq_eq_false_iff_ne.2 this, beq_eq_false_iff_ne.2 c]
    have q4 : (s == j) = (e.src == b) := by
      by_cases c : e.src = b
      · subst c; rw [hs] at hb; simp at hb; simp [hb]
      · have : s ≠ j := fun q => c (index_inj hs (q ▸ hb))
        rw [beq_eq_false_iff_ne.2 this, beq_eq_false_iff_ne.2 c]
    have q5 : (s == d) = (e.src == e.dst) := by
      by_cases c : e.src = e.dst
      · rw [c, hd] at hs; simp at hs; simp [c, hs]
      · have : s ≠ d := fun q => c (index_inj hs (q ▸ hd))
        rw [beq_eq_false_iff_ne.2 this, beq_eq_false_iff_ne.2 c]
    simp only [arcsOf, q5]
    cases c1 : (e.src == a) <;> cases c2 : (e.dst == b) <;> cases c3 : (e.dst == a) <;> cases c4 : (e.src == b) <;>
      cases c5 : (e.src == e.dst) <;> cases dr <;>
      simp only [c1, c2, c3, c4] at q1 q2 q3 q4 <;>
      simp_all [Edge.joins, List.filter_cons] <;> grind

theorem out_between {g : Gml} {n : Net} (h : Parsed g n) {a b i j : Nat} (ha : index a n.ids = some i) (hb : index b n.ids = some j) :
    (n.out i).filter (fun e => e.1 == j) = (between g a b).map (fun e => (j, e.path)) := by
  unfold Net.out Net.arcs between
  rw [h.dir]
  exact match_arcs h.es ha hb

theorem match_mem {ids : List Nat} {dr : Bool} {l : List Edge} {m : List (Nat × Nat × Path)} (h : Match ids l m) {x : Nat × Nat × Path} (hx : x ∈ arcsOf dr m) :
    (0 ≤ x.2.2.loss ∧ x.2.2.loss ≤ 1 ∧ 0 < x.2.2.lat) ∧ ∃ a b, index a ids = some x.1 ∧ index b ids = some x.2.1 := by
  induction h with
  | nil => simp [arcsOf] at hx
  | @cons e s d l m h1 h2 h3 hs hd _ ih =>
    simp only [arcsOf] at hx
    split at hx
    · rcases List.mem_cons.1 hx with rfl | hx
      · exact ⟨⟨h1, h2, h3⟩, _, _, hs, hd⟩
      · exact ih hx
    · rcases List.mem_cons.1 hx with rfl | hx
      · exact ⟨⟨h1, h2, h3⟩, _, _, hs, hd⟩
      rcases List.mem_cons.1 hx with rfl | hx
      · exact ⟨⟨h1, h2, h3⟩, _, _, hd, hs⟩
      · exact ih hx

theorem parsed_net_ok {g : Gml} {n : Net} (h : Parsed g n) : n.Ok := by
  intro e he
  obtain ⟨⟨h1, h2, h3⟩, _⟩ := match_mem h.es he
  exact ⟨h3, h1, h2⟩

theorem arc_iff {g : Gml} {n : Net} (h : Parsed g n) {a b i j : Nat} (ha : index a n.ids = some i) (hb : index b n.ids = some j) {w : Path} :
    (i, j, w) ∈ n.arcs ↔ ∃ e ∈ between g a b, e.path = w := by
  rw [← mem_out]
  have : (j, w) ∈ n.out i ↔ (j, w) ∈ (n.out i).filter (fun e => e.1 == j) := by simp
  rw [this, out_between h ha hb]
  simp

theorem walk_iff {r : Rounding} {g : Gml} {n : Net} (h : Parsed g n) {a i : Nat} (ha : index a n.ids = some i) {v : Nat} {c : Path} :
    IWalk r n i v c ↔ ∃ b, index b n.ids = some v ∧ Walk r g a b c := by
  constructor
  · intro w
    induction w with
    | nil => exact ⟨a, ha, .nil⟩
    | @snoc v t c w hw m ih =>
      obtain ⟨b, hb, wk⟩ := ih
      obtain ⟨_, x, y, hx, hy⟩ := match_mem h.es m
      obtain ⟨e, he, q⟩ := (arc_iff h hb hy).1 m
      exact ⟨y, hy, by rw [← q]; exact .snoc wk he⟩
  · rintro ⟨b, hb, wk⟩
    induction wk generalizing v with
    | nil => rw [ha] at hb; cases hb; exact .nil
    | @snoc b t c e wk he ih =>
      have hbm : ∃ k, index b n.ids = some k := by
        have := List.mem_filter.1 he
        have mem : ∀ {l m}, Match n.ids l m → ∀ e ∈ l, (∃ k, index e.src n.ids = some k) ∧ ∃ k, index e.dst n.ids = some k := by
          intro l m hm
          induction hm with
          | nil => simp
          | cons _ _ _ hs hd _ ih =>
            intro e he
            rcases List.mem_cons.1 he with rfl | he
            · exact ⟨⟨_, hs⟩, ⟨_, hd⟩⟩
            · exact ih e he
        obtain ⟨m1, m2⟩ := mem h.es e this.1
        have j := this.2
        simp only [Edge.joins, Bool.or_eq_true, Bool.and_eq_true, beq_iff_eq] at j
        rcases j with j | j
        · rw [← j.1]; exact m1
        · rw [← j.2]; exact m2
      obtain ⟨k, hk⟩ := hbm
      exact .snoc (ih hk) ((arc_iff h hk hb).2 ⟨e, he, rfl⟩)

/-! ## Grids of entries -/

theorem lookup_row (q : Nat → Nat → Option Path) (x a b : Nat) : ∀ (l : List Nat),
    (l.filterMap fun y => (q x y).map fun c => ((x, y), c)).lookup (a, b) = if a = x ∧ b ∈ l then q x b else none
  | [] => by simp
  | y :: l => by
    rw [List.filterMap_cons]
    cases e : q x y with
    | none =>
      simp only [Option.map_none]
      rw [lookup_row q x a b l]
      by_cases c : a = x <;> by_cases d : b = y <;> simp_all
    | some c =>
      simp only [Option.map_some, List.lookup_cons]
      by_cases d : (a, b) = (x, y)
      · cases d
        simp [e]
      · have : ((a, b) == (x, y)) = false := by simpa using d
        rw [this, lookup_row q x a b l]
        by_cases c1 : a = x
        · subst c1
          have : b ≠ y := fun k => d (by rw [k])
          simp [this]
        · simp [c1]

theorem lookup_grid (q : Nat → Nat → Option Path) (a b : Nat) (l2 : List Nat) : ∀ (l : List Nat),
    (l.flatMap fun x => l2.filterMap fun y => (q x y).map fun c => ((x, y), c)).lookup (a, b) = if a ∈ l ∧ b ∈ l2 then q a b else none
  | [] => by simp
  | x :: l => by
    rw [List.flatMap_cons, List.lookup_append, lookup_row, lookup_grid q a b l2 l]
    by_cases c : a = x
    · subst c
      by_cases d : b ∈ l2
      · cases e : q a b <;> simp [d]
      · simp [d]
    · simp [c]

theorem filterMap_full {α : Type} (f : Nat → Option α) : ∀ (l : List Nat), (l.filterMap f).length ≤ l.length ∧
    ((l.filterMap f).length = l.length ↔ ∀ x ∈ l, (f x).isSome = true)
  | [] => by simp
  | x :: l => by
    obtain ⟨h1, h2⟩ := filterMap_full f l
    rw [List.filterMap_cons]
    cases e : f x with
    | none =>
      simp only [List.length_cons]
      exact ⟨by omega, ⟨fun h => by omega, fun h => by have := h x (by simp); rw [e] at this; simp at this⟩⟩
    | some c =>
      simp only [List.length_cons]
      refine ⟨by omega, ?_⟩
      rw [Nat.add_right_cancel_iff, h2]
      simp [e]

theorem grid_full (q : Paths) (l2 : List Nat) : ∀ (l : List Nat),
    (l.flatMap fun x => l2.filterMap fun y => (q x y).map fun c => ((x, y), c)).length ≤ l.length * l2.length ∧
    ((l.flatMap fun x => l2.filterMap fun y => (q x y).map fun c => ((x, y), c)).length = l.length * l2.length ↔
      ∀ x ∈ l, ∀ y ∈ l2, (q x y).isSome = true)
  | [] => by simp
  | x :: l => by
    obtain ⟨h1, h2⟩ := grid_full q l2 l
    obtain ⟨k1, k2⟩ := filterMap_full (fun y => (q x y).map fun c => ((x, y), c)) l2
    rw [List.flatMap_cons, List.length_append, List.length_cons, Nat.add_mul, Nat.one_mul]
    refine ⟨by omega, ?_⟩
    have : (∀ x' ∈ x :: l, ∀ y ∈ l2, (q x' y).isSome = true) ↔ (∀ y ∈ l2, (q x y).isSome = true) ∧ ∀ x ∈ l, ∀ y ∈ l2, (q x y).isSome = true := by simp
    rw [this, ← h2]
    simp only [Option.isSome_map] at k2
    rw [← k2]
    omega

theorem entries_full (q : Paths) (l : List Nat) : ((entries l q).length == l.length ^ 2) = true ↔ ∀ x ∈ l, ∀ y ∈ l, (q x y).isSome = true := by
  rw [beq_iff_eq, Nat.pow_two]
  exact (grid_full q l l).2

/-! ## The used nodes -/

/-- The index of a used node. -/
def ix (n : Net) (i : Nat) : Nat := (index i n.ids).getD 0

theorem ix_eq {n : Net} {i : Nat} (h : i ∈ n.ids) : index i n.ids = some (ix n i) := by
  obtain ⟨k, hk⟩ := index_some h
  simp [ix, hk]

theorem allSome_ok {n : Net} : ∀ {used : List Nat}, (∀ i ∈ used, i ∈ n.ids) → allSome (used.map fun i => index i n.ids) = .ok (used.map (ix n))
  | [], _ => rfl
  | i :: t, h => by
    simp only [List.map_cons, ix_eq (h i (by simp)), allSome, allSome_ok (used := t) (fun j hj => h j (by simp [hj])), R.bind_ok]

theorem toIds_row {n : Net} {p : Paths} {a : Nat} (ha : a ∈ n.ids) (rest out : List ((Nat × Nat) × Path)) (hr : toIds n rest = .ok out) : ∀ {l : List Nat},
    (∀ i ∈ l, i ∈ n.ids) →
    toIds n (((l.map (ix n)).filterMap fun b => (p (ix n a) b).map fun c => ((ix n a, b), c)) ++ rest) =
      .ok ((l.filterMap fun b => (p (ix n a) (ix n b)).map fun c => ((a, b), c)) ++ out)
  | [], _ => by simpa using hr
  | b :: l, h => by
    have ih := toIds_row (p := p) ha rest out hr (l := l) (fun j hj => h j (by simp [hj]))
    rw [List.map_cons, List.filterMap_cons, List.filterMap_cons]
    cases e : p (ix n a) (ix n b) with
    | none => simpa [e] using ih
    | some c =>
      simp only [Option.map_some, List.cons_append, toIds]
      rw [index_get (ix_eq ha), index_get (ix_eq (h b (by simp))), ih]
      rfl

theorem toIds_grid {n : Net} {p : Paths} {l2 : List Nat} (h2 : ∀ i ∈ l2, i ∈ n.ids) : ∀ {l : List Nat}, (∀ i ∈ l, i ∈ n.ids) →
    toIds n ((l.map (ix n)).flatMap fun a => (l2.map (ix n)).filterMap fun b => (p a b).map fun c => ((a, b), c)) =
      .ok (l.flatMap fun a => l2.filterMap fun b => (p (ix n a) (ix n b)).map fun c => ((a, b), c))
  | [], _ => rfl
  | a :: l, h => by
    rw [List.map_cons, List.flatMap_cons, List.flatMap_cons]
    exact toIds_row (h a (by simp)) _ _ (toIds_grid h2 (l := l) (fun j hj => h j (by simp [hj]))) h2

theorem ix_inj {n : Net} {a b : Nat} (ha : a ∈ n.ids) (hb : b ∈ n.ids) (e : ix n a = ix n b) : a = b :=
  index_inj (ix_eq ha) (e ▸ ix_eq hb)

theorem ix_mem {n : Net} {l : List Nat} (hl : ∀ i ∈ l, i ∈ n.ids) {a : Nat} (ha : a ∈ n.ids) : ix n a ∈ l.map (ix n) ↔ a ∈ l := by
  rw [List.mem_map]
  constructor
  · rintro ⟨b, hb, e⟩
    rw [← ix_inj (hl b hb) ha e]
    exact hb
  · intro h; exact ⟨a, h, rfl⟩

theorem ix_nodup {n : Net} : ∀ {l : List Nat}, (∀ i ∈ l, i ∈ n.ids) → l.Nodup → (l.map (ix n)).Nodup
  | [], _, _ => by simp
  | a :: l, h, d => by
    rw [List.map_cons, List.nodup_cons]
    rw [List.nodup_cons] at d
    have hl : ∀ i ∈ l, i ∈ n.ids := fun i hi => h i (by simp [hi])
    exact ⟨fun m => d.1 ((ix_mem hl (h a (by simp))).1 m), ix_nodup hl d.2⟩

/-! ## Weights of edges -/

theorem edgeWeight_ok {g : Gml} {n : Net} (h : Parsed g n) {a b : Nat} (ha : a ∈ n.ids) (hb : b ∈ n.ids) {w : Path} :
    n.edgeWeight (ix n a) (ix n b) = .ok w ↔ ∃ e, between g a b = [e] ∧ e.path = w := by
  unfold Net.edgeWeight
  rw [out_between h (ix_eq ha) (ix_eq hb)]
  match q : between g a b with
  | [] => simp
  | [e] => simp
  | e :: f :: l => simp

theorem edgeWeight_err {g : Gml} {n : Net} (h : Parsed g n) {a b : Nat} (ha : a ∈ n.ids) (hb : b ∈ n.ids) {x : Err} (k : n.edgeWeight (ix n a) (ix n b) = .error x) :
    (between g a b).length ≠ 1 := by
  unfold Net.edgeWeight at k
  rw [out_between h (ix_eq ha) (ix_eq hb)] at k
  match q : between g a b with
  | [] => simp
  | [e] => rw [q] at k; simp at k
  | e :: f :: l => simp

/-- What the loop over the self-loops does. -/
theorem selfLoops_spec (g : Net) : ∀ (l : List Nat) (p : Paths), l.Nodup → (∀ n ∈ l, p n n = some .zero) →
    (∃ x, selfLoops g l p = .ok (.error x) ∧ ∃ n ∈ l, ∃ y, g.edgeWeight n n = .error y) ∨
    (∃ p', selfLoops g l p = .ok (.ok p') ∧ (∀ n ∈ l, ∃ w, g.edgeWeight n n = .ok w ∧ p' n n = some w) ∧ ∀ a b, ¬ (a = b ∧ a ∈ l) → p' a b = p a b)
  | [], p, _, _ => .inr ⟨p, rfl, by simp, by simp⟩
  | n :: t, p, nd, hz => by
    rw [List.nodup_cons] at nd
    simp only [selfLoops, hz n (by simp)]
    rw [if_pos (by decide +kernel)]
    cases e : g.edgeWeight n n with
    | error x => exact .inl ⟨x, rfl, n, by simp, x, e⟩
    | ok w =>
      simp only
      have := selfLoops_spec g t (fun a b => if a = n ∧ b = n then some w else p a b) nd.2 (by
        intro m hm
        have : m ≠ n := fun q => nd.1 (q ▸ hm)
        simp only [this, false_and, if_false]
        exact hz m (by simp [hm]))
      rcases this with ⟨x, h1, m, hm, h2⟩ | ⟨p', h1, h2, h3⟩
      · exact .inl ⟨x, h1, m, by simp [hm], h2⟩
      · refine .inr ⟨p', h1, fun m hm => ?_, fun a b q => ?_⟩
        · rcases List.mem_cons.1 hm with rfl | hm
          · refine ⟨w, e, ?_⟩
            rw [h3 m m (by simp [nd.1])]
            simp
          · exact h2 m hm
        · rw [h3 a b (fun ⟨q1, q2⟩ => q ⟨q1, by simp [q2]⟩)]
          by_cases c : a = n ∧ b = n
          · exact absurd ⟨c.1.trans c.2.symm, by simp [c.1]⟩ q
          · simp [c]

theorem directAll_spec (g : Net) : ∀ (l : List (Nat × Nat)),
    (∃ x, directAll g l = .error x ∧ ∃ e ∈ l, ∃ y, g.edgeWeight e.1 e.2 = .error y) ∨
    (directAll g l = .ok () ∧ ∀ e ∈ l, ∃ w, g.edgeWeight e.1 e.2 = .ok w)
  | [] => .inr ⟨rfl, by simp⟩
  | (a, b) :: t => by
    simp only [directAll]
    cases e : g.edgeWeight a b with
    | error x => exact .inl ⟨x, rfl, (a, b), by simp, x, e⟩
    | ok w =>
      rcases directAll_spec g t with ⟨x, h1, m, hm, h2⟩ | ⟨h1, h2⟩
      · exact .inl ⟨x, h1, m, by simp [hm], h2⟩
      · refine .inr ⟨h1, fun m hm => ?_⟩
        rcases List.mem_cons.1 hm with rfl | hm
        · exact ⟨w, e⟩
        · exact h2 m hm

end Shadow.Graph
