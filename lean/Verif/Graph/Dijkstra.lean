import Verif.Graph.Model
/-! # The algorithm of Dijkstra finds the cheapest walks -/

namespace Shadow.Graph
open Shadow.Base

/-! ## The order of path properties -/

/-- Less or equal: lower latency, or the same latency and not a higher loss. -/
def Path.le (a b : Path) : Prop := a.lat < b.lat ∨ (a.lat = b.lat ∧ a.loss ≤ b.loss)

theorem Path.lt_false {a b : Path} : b.lt a = false ↔ a.le b := by
  simp only [Path.lt, Path.le, Bool.or_eq_false_iff, decide_eq_false_iff_not, Bool.and_eq_false_iff, beq_eq_false_iff_ne, Rat.not_lt]
  constructor
  · rintro ⟨h, k⟩
    rcases k with k | k
    · left; omega
    · by_cases e : a.lat = b.lat
      · exact .inr ⟨e, k⟩
      · left; omega
  · rintro (h | ⟨h, k⟩)
    · exact ⟨by omega, .inl (by omega)⟩
    · exact ⟨by omega, .inr k⟩

theorem Path.le_refl (a : Path) : a.le a := .inr ⟨rfl, Rat.le_refl⟩

theorem Path.le_trans {a b c : Path} (h : a.le b) (k : b.le c) : a.le c := by
  rcases h with h | ⟨h, h'⟩ <;> rcases k with k | ⟨k, k'⟩
  · left; omega
  · left; omega
  · left; omega
  · exact .inr ⟨by omega, Rat.le_trans h' k'⟩

theorem Path.le_antisymm {a b : Path} (h : a.le b) (k : b.le a) : a = b := by
  rcases h with h | ⟨h, h'⟩ <;> rcases k with k | ⟨k, k'⟩
  · omega
  · omega
  · omega
  · cases a; cases b; simp at *; exact ⟨h, Rat.le_antisymm h' k'⟩

theorem Path.le_total (a b : Path) : a.le b ∨ b.le a := by
  rcases Nat.lt_trichotomy a.lat b.lat with h | h | h
  · exact .inl (.inl h)
  · rcases Rat.le_total (a := a.loss) (b := b.loss) with k | k
    · exact .inl (.inr ⟨h, k⟩)
    · exact .inr (.inr ⟨h.symm, k⟩)
  · exact .inr (.inl h)

theorem one_sub_mono {a b : Rat} (h : a ≤ b) : 1 - b ≤ 1 - a := by
  rw [Rat.sub_eq_add_neg, Rat.sub_eq_add_neg]
  exact Rat.add_le_add_left.2 (Rat.neg_le_neg h)

/-- Going on along the same edge keeps the order. -/
theorem Path.add_mono (r : Rounding) {a b w : Path} (hw : w.loss ≤ 1) (h : a.le b) : (a.add r w).le (b.add r w) := by
  rcases h with h | ⟨h, k⟩
  · left; simp only [Path.add]; omega
  · right
    refine ⟨by simp only [Path.add]; omega, ?_⟩
    simp only [Path.add]
    have nn : 0 ≤ r.f (1 - w.loss) := by
      have := r.mono (a := 0) (b := 1 - w.loss) ((Rat.le_iff_sub_nonneg _ _).1 hw)
      rwa [r.zero] at this
    exact r.mono (one_sub_mono (r.mono (Rat.mul_le_mul_of_nonneg_right (r.mono (one_sub_mono k)) nn)))

/-- An edge makes a path dearer. -/
theorem Path.le_add (r : Rounding) {a w : Path} (hw : 0 < w.lat) : a.le (a.add r w) := by
  left; simp only [Path.add]; omega

/-! ## Walks -/

/-- The walks from `a` in the graph of indexes, with the properties Shadow computes for them. -/
inductive IWalk (r : Rounding) (g : Net) (a : Nat) : Nat → Path → Prop
  | nil : IWalk r g a a .zero
  | snoc {v t : Nat} {c w : Path} : IWalk r g a v c → (v, t, w) ∈ g.arcs → IWalk r g a t (c.add r w)

/-- What the parser guarantees of the weights. -/
def Net.Ok (g : Net) : Prop := ∀ e ∈ g.arcs, 0 < e.2.2.lat ∧ 0 ≤ e.2.2.loss ∧ e.2.2.loss ≤ 1

theorem mem_out {g : Net} {v t : Nat} {w : Path} : (t, w) ∈ g.out v ↔ (v, t, w) ∈ g.arcs := by
  simp only [Net.out, List.mem_map, List.mem_filter]
  constructor
  · rintro ⟨⟨x, y, z⟩, ⟨h, e⟩, k⟩
    simp at e k
    obtain ⟨rfl, rfl⟩ := k
    subst e
    exact h
  · intro h; exact ⟨(v, t, w), ⟨h, by simp⟩, rfl⟩

/-! ## The invariant -/

structure DInv (r : Rounding) (g : Net) (a : Nat) (d : DS) : Prop where
  walk : ∀ v c, d.scores v = some c → IWalk r g a v c
  heap : ∀ e ∈ d.heap, ∃ s, d.scores e.2 = some s ∧ s.le e.1
  todo : ∀ v c, d.scores v = some c → v ∉ d.vis → (c, v) ∈ d.heap
  low : ∀ v ∈ d.vis, ∃ c, d.scores v = some c ∧ ∀ e ∈ d.heap, c.le e.1
  done : ∀ v ∈ d.vis, ∀ c t w, d.scores v = some c → (v, t, w) ∈ g.arcs → ∃ s, d.scores t = some s ∧ s.le (c.add r w)
  src : d.scores a = some .zero

/-- While the edges of `v` (with score `c`) are visited: the invariant except for the edges of `v`, which is not marked as visited yet. -/
structure RInv (r : Rounding) (g : Net) (a v : Nat) (c : Path) (vs : List Nat) (d : DS) : Prop where
  vis : d.vis = vs
  walk : ∀ v c, d.scores v = some c → IWalk r g a v c
  heap : ∀ e ∈ d.heap, ∃ s, d.scores e.2 = some s ∧ s.le e.1
  todo : ∀ u c, d.scores u = some c → u ∉ vs → u ≠ v → (c, u) ∈ d.heap
  self : d.scores v = some c
  low : ∀ u ∈ vs, ∃ s, d.scores u = some s ∧ s.le c
  lowc : ∀ e ∈ d.heap, c.le e.1
  done : ∀ v ∈ vs, ∀ c t w, d.scores v = some c → (v, t, w) ∈ g.arcs → ∃ s, d.scores t = some s ∧ s.le (c.add r w)
  src : d.scores a = some .zero

theorem zero_le_walk {r : Rounding} {g : Net} {a v : Nat} {c : Path} (ok : g.Ok) (h : IWalk r g a v c) : Path.zero.le c := by
  induction h with
  | nil => exact Path.le_refl _
  | snoc h m ih => exact Path.le_trans ih (Path.le_add r (ok _ m).1)

/-- A better score for an unvisited node. -/
theorem put_inv {r : Rounding} {g : Net} {a v t : Nat} {c w : Path} {vis : List Nat} {d : DS} (ok : g.Ok) (h : RInv r g a v c vis d)
    (m : (v, t, w) ∈ g.arcs) (ht : t ∉ vis) (better : ∀ o, d.scores t = some o → (c.add r w).lt o = true) :
    RInv r g a v c vis { d with scores := fun u => if u = t then some (c.add r w) else d.scores u, heap := (c.add r w, t) :: d.heap } := by
  have lec : c.le (c.add r w) := Path.le_add r (ok _ m).1
  have tv : t ≠ v := by
    intro e
    have := better c (by rw [e]; exact h.self)
    rw [Path.lt_false.2 lec] at this
    simp at this
  have dec : ∀ o, d.scores t = some o → (c.add r w).le o := by
    intro o ho
    rcases Path.le_total (c.add r w) o with k | k
    · exact k
    · rw [← Path.lt_false, better o ho] at k; simp at k
  have mono : ∀ u s, d.scores u = some s → ∃ s', (if u = t then some (c.add r w) else d.scores u) = some s' ∧ s'.le s := by
    intro u s hs
    by_cases e : u = t
    · subst e; exact ⟨_, if_pos rfl, dec s hs⟩
    · exact ⟨s, by rw [if_neg e]; exact hs, Path.le_refl _⟩
  have nt : ∀ u ∈ vis, u ≠ t := fun u hu e => ht (e ▸ hu)
  refine ⟨h.vis, ?_, ?_, ?_, ?_, ?_, ?_, ?_, ?_⟩
  · intro u s hs
    by_cases e : u = t
    · subst e
      simp at hs
      subst hs
      exact .snoc (h.walk _ _ h.self) m
    · simp [e] at hs; exact h.walk _ _ hs
  · intro e he
    rcases List.mem_cons.1 he with rfl | he
    · exact ⟨_, if_pos rfl, Path.le_refl _⟩
    · obtain ⟨s, h1, h2⟩ := h.heap e he
      obtain ⟨s', h3, h4⟩ := mono _ s h1
      exact ⟨s', h3, Path.le_trans h4 h2⟩
  · intro u s hs hu uv
    by_cases e : u = t
    · subst e; simp at hs; subst hs; exact List.mem_cons_self
    · simp [e] at hs; exact List.mem_cons_of_mem _ (h.todo u s hs hu uv)
  · simp only [if_neg tv.symm]; exact h.self
  · intro u hu
    simp only [if_neg (nt u hu)]
    exact h.low u hu
  · intro e he
    rcases List.mem_cons.1 he with rfl | he
    · exact lec
    · exact h.lowc e he
  · intro u hu c' t' w' hs hm
    simp only [if_neg (nt u hu)] at hs
    obtain ⟨s, h1, h2⟩ := h.done u hu c' t' w' hs hm
    obtain ⟨s', h3, h4⟩ := mono _ s h1
    exact ⟨s', h3, Path.le_trans h4 h2⟩
  · obtain ⟨s', h3, h4⟩ := mono _ _ h.src
    have : IWalk r g a a s' := by
      by_cases e : a = t
      · subst e
        simp at h3
        subst h3
        exact .snoc (h.walk _ _ h.self) m
      · simp [e] at h3; exact h.walk _ _ h3
    rw [← Path.le_antisymm h4 (zero_le_walk ok this)]
    exact h3

theorem relax1_inv {r : Rounding} {g : Net} {a v t : Nat} {c w : Path} {vis : List Nat} {d : DS} (ok : g.Ok) (h : RInv r g a v c vis d) (m : (v, t, w) ∈ g.arcs) :
    RInv r g a v c vis (relax1 r c d (t, w)) ∧ (∃ s, (relax1 r c d (t, w)).scores t = some s ∧ s.le (c.add r w)) ∧
    (∀ u s, d.scores u = some s → ∃ s', (relax1 r c d (t, w)).scores u = some s' ∧ s'.le s) ∧
    (relax1 r c d (t, w)).heap.length ≤ d.heap.length + 1 := by
  have lec : c.le (c.add r w) := Path.le_add r (ok _ m).1
  unfold relax1
  split
  · rename_i k
    have k : t ∈ vis := by rw [h.vis] at k; simpa using k
    obtain ⟨s, h1, h2⟩ := h.low t k
    exact ⟨h, ⟨s, h1, Path.le_trans h2 lec⟩, fun u s hs => ⟨s, hs, Path.le_refl _⟩, by omega⟩
  · rename_i k
    have k : t ∉ vis := by rw [h.vis] at k; simpa using k
    simp only
    split
    · rename_i o ho
      split
      · rename_i b
        refine ⟨put_inv ok h m k (fun o' h' => by rw [ho] at h'; cases h'; exact b), ⟨_, if_pos rfl, Path.le_refl _⟩, fun u s hs => ?_, by simp⟩
        by_cases e : u = t
        · subst e
          refine ⟨_, if_pos rfl, ?_⟩
          rw [ho] at hs
          cases hs
          rcases Path.le_total (c.add r w) o with q | q
          · exact q
          · rw [← Path.lt_false, b] at q; simp at q
        · exact ⟨s, by simp only [if_neg e]; exact hs, Path.le_refl _⟩
      · rename_i b
        exact ⟨h, ⟨o, ho, Path.lt_false.1 (by simpa using b)⟩, fun u s hs => ⟨s, hs, Path.le_refl _⟩, by omega⟩
    · rename_i ho
      refine ⟨put_inv ok h m k (fun o' h' => by rw [ho] at h'; cases h'), ⟨_, if_pos rfl, Path.le_refl _⟩, fun u s hs => ?_, by simp⟩
      by_cases e : u = t
      · subst e; rw [ho] at hs; cases hs
      · exact ⟨s, by simp only [if_neg e]; exact hs, Path.le_refl _⟩

theorem relax_inv {r : Rounding} {g : Net} {a v : Nat} {c : Path} {vis : List Nat} (ok : g.Ok) : ∀ (l : List (Nat × Path)) {d : DS},
    RInv r g a v c vis d → (∀ e ∈ l, (v, e) ∈ g.arcs) →
    RInv r g a v c vis (l.foldl (relax1 r c) d) ∧ (∀ e ∈ l, ∃ s, (l.foldl (relax1 r c) d).scores e.1 = some s ∧ s.le (c.add r e.2)) ∧
    (∀ u s, d.scores u = some s → ∃ s', (l.foldl (relax1 r c) d).scores u = some s' ∧ s'.le s) ∧
    (l.foldl (relax1 r c) d).heap.length ≤ d.heap.length + l.length
  | [], d, h, _ => ⟨h, by simp, fun u s hs => ⟨s, hs, Path.le_refl _⟩, by simp⟩
  | (t, w) :: l, d, h, m => by
    obtain ⟨h1, ⟨s, h2, h3⟩, h4, h5⟩ := relax1_inv ok h (t := t) (w := w) (m (t, w) (by simp))
    obtain ⟨k1, k2, k3, k4⟩ := relax_inv ok l h1 (fun x hx => m x (by simp [hx]))
    refine ⟨k1, ?_, ?_, ?_⟩
    · intro x hx
      rcases List.mem_cons.1 hx with rfl | hx
      · obtain ⟨s', q1, q2⟩ := k3 _ s h2
        exact ⟨s', q1, Path.le_trans q2 h3⟩
      · exact k2 x hx
    · intro u s hs
      obtain ⟨s1, q1, q2⟩ := h4 u s hs
      obtain ⟨s2, q3, q4⟩ := k3 u s1 q1
      exact ⟨s2, q3, Path.le_trans q4 q2⟩
    · simp only [List.foldl_cons, List.length_cons]
      omega

/-- Rounds that are left at most. -/
def left (g : Net) (d : DS) : Nat := d.heap.length + (g.arcs.filter (fun e => !d.vis.contains e.1)).length

theorem filter_split (l : List (Nat × Nat × Path)) (vis : List Nat) (v : Nat) (hv : v ∉ vis) :
    (l.filter (fun e => !(v :: vis).contains e.1)).length + (l.filter (fun e => e.1 == v)).length = (l.filter (fun e => !vis.contains e.1)).length := by
  induction l with
  | nil => rfl
  | cons e l ih =>
    simp only [List.filter_cons]
    by_cases q : e.1 = v
    · subst q
      simp [hv] at ih ⊢
      omega
    · by_cases q2 : e.1 ∈ vis
      · simp [q, q2] at ih ⊢; omega
      · simp [q, q2] at ih ⊢; omega

theorem loop_inv {r : Rounding} {lib : Lib} {g : Net} {a : Nat} (ok : g.Ok) : ∀ (n : Nat) {d : DS}, DInv r g a d → left g d ≤ n →
    DInv r g a (loop r lib g n d) ∧ (loop r lib g n d).heap = []
  | 0, d, h, m => ⟨h, by simp only [left] at m; exact List.length_eq_zero_iff.1 (by simp only [loop]; omega)⟩
  | n + 1, d, h, m => by
    unfold loop
    split
    · rename_i hp; exact ⟨h, (lib.pop_none _).1 hp⟩
    · rename_i c v hq hp
      have pm := lib.pop_perm hp
      have mn := lib.pop_min hp
      have sub : ∀ e ∈ hq, e ∈ d.heap := fun e he => pm.mem_iff.2 (List.mem_cons_of_mem _ he)
      have vin : (c, v) ∈ d.heap := pm.mem_iff.2 List.mem_cons_self
      have len : d.heap.length = hq.length + 1 := by rw [pm.length_eq]; rfl
      split
      · rename_i hv
        have hv : v ∈ d.vis := by simpa using hv
        refine loop_inv ok n ⟨h.walk, fun e he => h.heap e (sub e he), fun u s hs hu => ?_, fun u hu => ?_, h.done, h.src⟩ ?_
        · have := pm.mem_iff.1 (h.todo u s hs hu)
          rcases List.mem_cons.1 this with e | e
          · simp at e; exact absurd (e.2 ▸ hv) hu
          · exact e
        · obtain ⟨s, h1, h2⟩ := h.low u hu
          exact ⟨s, h1, fun e he => h2 e (sub e he)⟩
        · simp only [left] at m ⊢; omega
      · rename_i hv
        have hv : v ∉ d.vis := by simpa using hv
        obtain ⟨s, hs, sc⟩ := h.heap _ vin
        have cs : c = s := Path.le_antisymm (Path.lt_false.1 (mn _ (h.todo v s hs hv))) sc
        subst cs
        have start : RInv r g a v c d.vis { d with heap := hq } := by
          refine ⟨rfl, h.walk, fun e he => h.heap e (sub e he), fun u s hs' hu uv => ?_, hs, fun u hu => ?_, fun e he => Path.lt_false.1 (mn e (sub e he)),
            h.done, h.src⟩
          · rcases List.mem_cons.1 (pm.mem_iff.1 (h.todo u s hs' hu)) with e | e
            · simp at e; exact absurd e.2 uv
            · exact e
          · obtain ⟨s, h1, h2⟩ := h.low u hu
            exact ⟨s, h1, h2 _ vin⟩
        have ep := lib.edges_perm g v
        obtain ⟨k1, k2, k3, k4⟩ := relax_inv ok (lib.edges g v) start (fun e he => mem_out.1 (ep.mem_iff.1 he))
        simp only
        refine loop_inv ok n ⟨k1.walk, k1.heap, fun u s hs' hu => ?_, fun u hu => ?_, fun u hu c' t w hs' hm => ?_, k1.src⟩ ?_
        · simp [k1.vis] at hu
          exact k1.todo u s hs' hu.2 hu.1
        · rcases List.mem_cons.1 hu with rfl | hu
          · exact ⟨c, k1.self, k1.lowc⟩
          · obtain ⟨s, h1, h2⟩ := k1.low u (k1.vis ▸ hu)
            exact ⟨s, h1, fun e he => Path.le_trans h2 (k1.lowc e he)⟩
        · rcases List.mem_cons.1 hu with rfl | hu
          · have : c' = c := by have := k1.self.symm.trans hs'; simpa using this.symm
            subst this
            exact k2 (t, w) (ep.mem_iff.2 (mem_out.2 hm))
          · exact k1.done u (k1.vis ▸ hu) c' t w hs' hm
        · simp only [left, k1.vis] at m ⊢
          have l1 := filter_split g.arcs d.vis v hv
          have l2 : (lib.edges g v).length = (g.arcs.filter (fun e => e.1 == v)).length := by rw [ep.length_eq, Net.out, List.length_map]
          simp only at k4
          omega

/-- The algorithm ends by itself, with the cheapest walk to every node that can be reached. -/
theorem dijkstra_inv (r : Rounding) (lib : Lib) {g : Net} (ok : g.Ok) (a : Nat) :
    DInv r g a (dijkstra r lib g a) ∧ (dijkstra r lib g a).heap = [] := by
  refine loop_inv ok _ ⟨?_, ?_, ?_, by simp, by simp, by simp⟩ ?_
  · intro v c h
    by_cases e : v = a
    · subst e; simp at h; subst h; exact .nil
    · simp [e] at h
  · intro e he
    simp at he
    subst he
    exact ⟨.zero, by simp, Path.le_refl _⟩
  · intro v c h _
    by_cases e : v = a
    · subst e; simp at h; subst h; simp
    · simp [e] at h
  · have := List.length_filter_le (fun e : Nat × Nat × Path => !([] : List Nat).contains e.1) g.arcs
    simp only [left, List.length_singleton]
    omega

theorem dijkstra_spec (r : Rounding) (lib : Lib) {g : Net} (ok : g.Ok) (a v : Nat) (c : Path) :
    (dijkstra r lib g a).scores v = some c ↔ IWalk r g a v c ∧ ∀ c', IWalk r g a v c' → c.le c' := by
  obtain ⟨h, e⟩ := dijkstra_inv r lib ok a
  have all : ∀ v c', IWalk r g a v c' → ∃ s, (dijkstra r lib g a).scores v = some s ∧ s.le c' := by
    intro v c' w
    induction w with
    | nil => exact ⟨_, h.src, Path.le_refl _⟩
    | @snoc v t c w hw m ih =>
      obtain ⟨s, h1, h2⟩ := ih
      have vv : v ∈ (dijkstra r lib g a).vis := by
        refine Classical.byContradiction fun q => ?_
        have := h.todo v s h1 q
        rw [e] at this
        simp at this
      obtain ⟨s', h3, h4⟩ := h.done v vv s t w h1 m
      exact ⟨s', h3, Path.le_trans h4 (Path.add_mono r (ok _ m).2.2 h2)⟩
  constructor
  · intro k
    refine ⟨h.walk _ _ k, fun c' w => ?_⟩
    obtain ⟨s, h1, h2⟩ := all v c' w
    rw [k] at h1
    cases h1
    exact h2
  · rintro ⟨w, mn⟩
    obtain ⟨s, h1, h2⟩ := all v c w
    rw [h1, Path.le_antisymm h2 (mn s (h.walk _ _ h1))]

theorem dijkstra_some (r : Rounding) (lib : Lib) {g : Net} (ok : g.Ok) (a v : Nat) :
    ((dijkstra r lib g a).scores v).isSome = true ↔ ∃ c, IWalk r g a v c := by
  obtain ⟨h, e⟩ := dijkstra_inv r lib ok a
  constructor
  · intro k
    obtain ⟨c, hc⟩ := Option.isSome_iff_exists.1 k
    exact ⟨c, h.walk _ _ hc⟩
  · rintro ⟨c, w⟩
    induction w with
    | nil => simp [h.src]
    | @snoc v t c w hw m ih =>
      obtain ⟨s, hs⟩ := Option.isSome_iff_exists.1 ih
      have vv : v ∈ (dijkstra r lib g a).vis := by
        refine Classical.byContradiction fun q => ?_
        have := h.todo v s hs q
        rw [e] at this
        simp at this
      obtain ⟨s', h3, _⟩ := h.done v vv s t w hs m
      simp [h3]

end Shadow.Graph
