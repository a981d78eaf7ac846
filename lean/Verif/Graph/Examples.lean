import Verif.Graph.Props
/-! # C71: the hypotheses are met; findings -/

namespace Shadow.Graph
open Shadow.Base

/-- A heap as a list: the first of the cheapest entries. -/
def popMin : List (Path × Nat) → Option ((Path × Nat) × List (Path × Nat))
  | [] => none
  | x :: l =>
    match popMin l with
    | none => some (x, [])
    | some (y, r) => if y.1.lt x.1 then some (y, x :: r) else some (x, y :: r)

theorem popMin_none : ∀ l, popMin l = none ↔ l = []
  | [] => by simp [popMin]
  | x :: l => by
    simp only [popMin]
    split
    · simp
    · split <;> simp

theorem popMin_spec : ∀ {l : List (Path × Nat)} {x r}, popMin l = some (x, r) → l.Perm (x :: r) ∧ ∀ y ∈ l, y.1.lt x.1 = false
  | [], _, _, h => by simp [popMin] at h
  | z :: l, x, r, h => by
    simp only [popMin] at h
    have self : ∀ p : Path, p.lt p = false := fun p => Path.lt_false.2 (Path.le_refl p)
    split at h
    · rename_i e
      cases h
      have := (popMin_none l).1 e
      subst this
      exact ⟨List.Perm.refl _, by simp [self]⟩
    · rename_i y t e
      obtain ⟨h1, h2⟩ := popMin_spec e
      split at h
      · rename_i c
        cases h
        refine ⟨(List.Perm.cons z h1).trans (List.Perm.swap _ _ _), fun w hw => ?_⟩
        rcases List.mem_cons.1 hw with rfl | hw
        · rcases Path.le_total x.1 w.1 with q | q
          · exact Path.lt_false.2 q
          · rw [← Path.lt_false, c] at q; simp at q
        · exact h2 w hw
      · rename_i c
        cases h
        refine ⟨List.Perm.cons _ h1, fun w hw => ?_⟩
        rcases List.mem_cons.1 hw with rfl | hw
        · exact self _
        · exact Path.lt_false.2 (Path.le_trans (Path.lt_false.1 (by simpa using c)) (Path.lt_false.1 (h2 w hw)))

/-- Data structures as in the examples. -/
def lib0 : Lib where
  pop := popMin
  pop_none := popMin_none
  pop_perm h := (popMin_spec h).1
  pop_min h := (popMin_spec h).2
  edges g v := g.out v
  edges_perm _ _ := List.Perm.refl _

/-- No rounding. -/
def exact0 : Rounding := ⟨id, fun h => h, rfl, rfl⟩

/-- Rounding to multiples of `2^-24`, which is that of `f32` between 1/2 and 1. -/
def round24 : Rounding where
  f x := ((x * 16777216 + 1/2).floor : Rat) / 16777216
  mono {a b} h := by
    have h1 : a * 16777216 + 1/2 ≤ b * 16777216 + 1/2 := Rat.add_le_add_right.2 (Rat.mul_le_mul_of_nonneg_right h (by decide +kernel))
    have h2 := Rat.floor_monotone h1
    rw [Rat.div_def, Rat.div_def]
    exact Rat.mul_le_mul_of_nonneg_right (by exact_mod_cast h2) (by decide +kernel)
  zero := by decide +kernel
  one := by decide +kernel

/-- The result is a path with the given properties. -/
def gives (x : R (Except Err Routing)) (a b : Nat) (c : Path) : Bool :=
  match x with
  | .ok (.ok i) => i.path a b == some c
  | _ => false

/-- A triangle with a fast detour, and two ways of the same latency with different losses. -/
def tri (directed : Bool) : Gml :=
  ⟨directed, [some 7, some 3, some 5],
    [⟨7, 7, 1, 0⟩, ⟨3, 3, 2, 0⟩, ⟨5, 5, 3, 0⟩, ⟨7, 3, 10, 1/2⟩, ⟨3, 5, 10, 1/2⟩, ⟨5, 7, 10, 0⟩, ⟨7, 5, 30, 0⟩, ⟨7, 3, 10, 1/4⟩]⟩

/-- The network of a graph, if it is accepted. -/
def netOf (g : Gml) : Net := match parse g with | .ok n => n | .error _ => ⟨false, [], []⟩

theorem netOf_eq {g : Gml} (h : (match parse g with | .ok _ => true | .error _ => false) = true) : parse g = .ok (netOf g) := by
  unfold netOf
  cases e : parse g with
  | ok n => rfl
  | error x => rw [e] at h; simp at h

theorem C71_example_parse : parse (tri true) = .ok (netOf (tri true)) ∧ parse (tri false) = .ok (netOf (tri false)) ∧ Uses (tri true) [5, 7, 3] ∧
    Uses (tri false) [5, 7, 3] :=
  ⟨netOf_eq (by decide +kernel), netOf_eq (by decide +kernel), ⟨by decide, by decide⟩, ⟨by decide, by decide⟩⟩

/-- In the directed graph the way from 7 to 5 over 3 is faster than the edge, with the better of the two edges from 7 to 3. -/
theorem C71_example_directed : gives (generate exact0 lib0 (netOf (tri true)) [5, 7, 3] true) 7 5 ⟨20, 5/8⟩ = true ∧
    gives (generate exact0 lib0 (netOf (tri true)) [5, 7, 3] true) 7 7 ⟨1, 0⟩ = true := by decide +kernel

/-- In the undirected graph the edge from 5 to 7 leads back. -/
theorem C71_example_undirected : gives (generate exact0 lib0 (netOf (tri false)) [5, 7, 3] true) 7 5 ⟨10, 0⟩ = true ∧
    gives (generate exact0 lib0 (netOf (tri false)) [5, 7, 3] true) 5 3 ⟨10, 1/2⟩ = true := by decide +kernel

/-- Direct paths need exactly one edge: 7 and 5 are joined by one edge in each direction, 7 and 3 by two. -/
theorem C71_example_direct : gives (generate exact0 lib0 (netOf (tri true)) [5] false) 5 5 ⟨3, 0⟩ = true ∧
    (generate exact0 lib0 (netOf (tri true)) [7, 3] false matches .ok (.error _)) = true := by decide +kernel

/-- **C71** (finding).  Two nodes in use that are not connected make Shadow panic, where other mistakes in the graph are reported. -/
theorem C71_finding_panic (r : Rounding) (lib : Lib) :
    generate r lib (netOf ⟨true, [some 0, some 1], [⟨0, 0, 1, 0⟩, ⟨1, 1, 1, 0⟩, ⟨0, 1, 1, 0⟩]⟩) [0, 1] true = .panic := by
  have hp := netOf_eq (g := ⟨true, [some 0, some 1], [⟨0, 0, 1, 0⟩, ⟨1, 1, 1, 0⟩, ⟨0, 1, 1, 0⟩]⟩) (by decide +kernel)
  have key := C71_shortest (used := [0, 1]) r lib hp ⟨by decide, by decide⟩
  have only : ∀ v c, Walk r ⟨true, [some 0, some 1], [⟨0, 0, 1, 0⟩, ⟨1, 1, 1, 0⟩, ⟨0, 1, 1, 0⟩]⟩ 1 v c → v = 1 := by
    intro v c w
    induction w with
    | nil => rfl
    | snoc _ m ih =>
      subst ih
      simp only [between, List.mem_filter, List.mem_cons, List.not_mem_nil, or_false, Edge.joins, Bool.not_true, Bool.false_and, Bool.or_false,
        Bool.and_eq_true, beq_iff_eq] at m
      rcases m with ⟨rfl | rfl | rfl, h1, h2⟩ <;> simp_all
  cases e : generate r lib (netOf ⟨true, [some 0, some 1], [⟨0, 0, 1, 0⟩, ⟨1, 1, 1, 0⟩, ⟨0, 1, 1, 0⟩]⟩) [0, 1] true with
  | panic => rfl
  | ok x =>
    rw [e] at key
    cases x with
    | error x =>
      obtain ⟨a, ha, k⟩ := key
      simp at ha
      rcases ha with rfl | rfl <;> simp [between, Edge.joins] at k
    | ok i =>
      obtain ⟨c, _, k⟩ := key.2.1 1 (by simp) 0 (by simp) (by decide)
      exact absurd (only _ _ k.walk) (by decide)

/-- **C71** (finding).  A loss that is too small to change 1 when it is subtracted is lost: the path along a single edge has no loss.  With direct paths it keeps it. -/
theorem C71_finding_loss (r : Rounding) (p : Path) (h : r.f (1 - p.loss) = 1) : (Path.zero.add r p).loss = 0 := by
  have e1 : (1 : Rat) - 0 = 1 := by decide +kernel
  have e2 : (1 : Rat) * 1 = 1 := by decide +kernel
  have e3 : (1 : Rat) - 1 = 0 := by decide +kernel
  simp only [Path.add, Path.zero, e1, h, r.one, e2, e3, r.zero]

/-- One packet in fifty million. -/
theorem C71_finding_loss_example : gives (generate round24 lib0 (netOf ⟨false, [some 0, some 1],
      [⟨0, 0, 1, 0⟩, ⟨1, 1, 1, 0⟩, ⟨0, 1, 5, 1/50000000⟩]⟩) [0, 1] true) 0 1 ⟨5, 0⟩ = true ∧
    gives (generate round24 lib0 (netOf ⟨false, [some 0, some 1],
      [⟨0, 0, 1, 0⟩, ⟨1, 1, 1, 0⟩, ⟨0, 1, 5, 1/50000000⟩]⟩) [0, 1] false) 0 1 ⟨5, 1/50000000⟩ = true := by decide +kernel

end Shadow.Graph
