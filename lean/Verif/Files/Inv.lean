import Verif.Files.Spec
/-!
# Counting the references to open files

`refs w f` is the number of references to `f` in the tables and the blocked calls.  `Bal w p` says that every count is
right when the references in `p` are held by local variables of the call under way.
-/
namespace Shadow.Files
open Shadow.Base

/-- References from a table. -/
def tref (f : Nat) : Option Table → Nat
  | none => 0
  | some tb => (filesOf tb.descs).count f

/-- References from a blocked call. -/
def href (f : Nat) : Option Thread → Nat
  | none => 0
  | some th => if th.active = some f then 1 else 0

/-- Does this thread use table `k`? -/
def uses (k : Nat) : Option Thread → Nat
  | none => 0
  | some th => if th.table = k then 1 else 0

def refs (w : World) (f : Nat) : Nat := (w.tables.map (tref f)).sum + (w.threads.map (href f)).sum

def users (w : World) (k : Nat) : Nat := (w.threads.map (uses k)).sum

structure Bal (w : World) (p : List Nat) : Prop where
  count : ∀ {f : Nat} {x : Open}, w.files[f]? = some x → x.count = refs w f + p.count f ∧ x.closes = if x.count = 0 then 1 else 0
  out : ∀ {f : Nat}, w.files.length ≤ f → refs w f + p.count f = 0

structure Str (w : World) : Prop where
  rc : ∀ {k : Nat} {tb : Table}, w.tables[k]? = some (some tb) → tb.rc = users w k ∧ 0 < tb.rc
  live : ∀ {t : Nat} {th : Thread}, w.threads[t]? = some (some th) → ∃ tb, w.tables[th.table]? = some (some tb)
  keys : ∀ {k : Nat} {tb : Table}, w.tables[k]? = some (some tb) → (tb.descs.map (·.1)).Nodup ∧ ∀ e ∈ tb.descs, e.1 ≤ fdMax

structure Inv (w : World) : Prop where
  bal : Bal w []
  str : Str w

theorem sum_set {α : Type} (f : α → Nat) : ∀ (l : List α) (i : Nat) (p q : α), l[i]? = some p →
    ((l.set i q).map f).sum + f p = (l.map f).sum + f q
  | [], _, _, _, h => by simp at h
  | x :: l, 0, p, q, h => by
      simp only [List.getElem?_cons_zero, Option.some.injEq] at h
      subst h
      simp only [List.set_cons_zero, List.map_cons, List.sum_cons]
      omega
  | x :: l, i + 1, p, q, h => by
      simp only [List.getElem?_cons_succ] at h
      have := sum_set f l i p q h
      simp only [List.set_cons_succ, List.map_cons, List.sum_cons]
      omega

theorem le_sum {α : Type} (f : α → Nat) : ∀ {l : List α} {i : Nat} {p : α}, l[i]? = some p → f p ≤ (l.map f).sum
  | [], _, _, h => by simp at h
  | x :: l, 0, p, h => by
      simp only [List.getElem?_cons_zero, Option.some.injEq] at h
      subst h
      simp only [List.map_cons, List.sum_cons]
      omega
  | x :: l, i + 1, p, h => by
      simp only [List.getElem?_cons_succ] at h
      have := le_sum f h
      simp only [List.map_cons, List.sum_cons]
      omega

theorem sum_pos {α : Type} (f : α → Nat) : ∀ {l : List α}, 0 < (l.map f).sum → ∃ (i : Nat) (p : α), l[i]? = some p ∧ 0 < f p
  | [], h => by simp at h
  | x :: l, h => by
      simp only [List.map_cons, List.sum_cons] at h
      by_cases hx : 0 < f x
      · exact ⟨0, x, by simp, hx⟩
      · obtain ⟨i, p, hi, hp⟩ := sum_pos f (l := l) (by omega)
        exact ⟨i + 1, p, by simpa using hi, hp⟩

theorem set_same {α : Type} {l : List α} {i : Nat} {x : α} (h : l[i]? = some x) : l.set i x = l := by
  apply List.ext_getElem?
  intro j
  by_cases hj : i = j
  · subst hj
    rw [getElem?_set_self' h, h]
  · rw [List.getElem?_set_ne hj]

theorem get_set {α : Type} {l : List α} {i j : Nat} {x y : α} (h : l[i]? = some x) : (l.set i y)[j]? = if i = j then some y else l[j]? := by
  by_cases hj : i = j
  · subst hj
    simp [getElem?_set_self' h]
  · simp [hj]

/-! ## The moves of references -/

theorem refs_setTable {w : World} {k : Nat} {o : Option Table} (h : w.tables[k]? = some o) (o' : Option Table) (f : Nat) :
    refs (w.setTable k o') f + tref f o = refs w f + tref f o' := by
  have := sum_set (tref f) _ _ _ o' h
  simp only [refs, World.setTable]
  omega

theorem refs_setThread {w : World} {t : Nat} {o : Option Thread} (h : w.threads[t]? = some o) (o' : Option Thread) (f : Nat) :
    refs (w.setThread t o') f + href f o = refs w f + href f o' := by
  have := sum_set (href f) _ _ _ o' h
  simp only [refs, World.setThread]
  omega

theorem refs_files (w : World) (l : List Open) (f : Nat) : refs { w with files := l } f = refs w f := rfl

theorem Bal.move {w w' : World} {p p' : List Nat} (b : Bal w p) (hf : w'.files = w.files)
    (h : ∀ f, refs w' f + p'.count f = refs w f + p.count f) : Bal w' p' := by
  constructor
  · intro f x hx
    rw [hf] at hx
    rw [h f]
    exact b.count hx
  · intro f hx
    rw [hf] at hx
    rw [h f]
    exact b.out hx

theorem Bal.setTable {w : World} {p p' : List Nat} (b : Bal w p) {k : Nat} {o : Option Table} (h : w.tables[k]? = some o)
    {o' : Option Table} (hc : ∀ f, tref f o' + p'.count f = tref f o + p.count f) : Bal (w.setTable k o') p' := by
  refine b.move rfl fun f => ?_
  have := refs_setTable h o' f
  have := hc f
  omega

theorem Bal.setThread {w : World} {p p' : List Nat} (b : Bal w p) {t : Nat} {o : Option Thread} (h : w.threads[t]? = some o)
    {o' : Option Thread} (hc : ∀ f, href f o' + p'.count f = href f o + p.count f) : Bal (w.setThread t o') p' := by
  refine b.move rfl fun f => ?_
  have := refs_setThread h o' f
  have := hc f
  omega

theorem Bal.addTable {w : World} {p p' : List Nat} (b : Bal w p) {tb : Table}
    (hc : ∀ f, tref f (some tb) + p'.count f = p.count f) : Bal (w.addTable tb) p' := by
  refine b.move rfl fun f => ?_
  have := hc f
  simp only [refs, World.addTable, List.map_append, List.map_cons, List.map_nil, List.sum_append, List.sum_cons, List.sum_nil]
  omega

theorem Bal.file {w : World} {p : List Nat} (b : Bal w p) {f : Nat} (h : 0 < refs w f + p.count f) : ∃ x, w.files[f]? = some x := by
  by_cases hl : f < w.files.length
  · exact ⟨w.files[f], by simp [hl]⟩
  · have := b.out (f := f) (by omega)
    omega

theorem Bal.newFile {w : World} {p : List Nat} (b : Bal w p) : Bal w.newFile.1 (w.newFile.2 :: p) := by
  have hr : ∀ f, refs w.newFile.1 f = refs w f := fun f => rfl
  constructor
  · intro f x hx
    rw [hr]
    simp only [World.newFile, List.getElem?_append] at hx
    simp only [World.newFile, List.count_cons]
    split at hx
    · rename_i hl
      have hne : ¬ w.files.length = f := by omega
      have := b.count hx
      simp [hne]
      exact this
    · rename_i hl
      have h0 := b.out (f := f) (by omega)
      by_cases he : f = w.files.length
      · subst he
        simp only [Nat.sub_self, List.getElem?_cons_zero, Option.some.injEq] at hx
        subst hx
        simp
        omega
      · rw [List.getElem?_eq_none (by simp; omega)] at hx
        cases hx
  · intro f hx
    rw [hr]
    simp only [World.newFile, List.length_append, List.length_cons, List.length_nil] at hx
    have h0 := b.out (f := f) (by omega)
    have hne : ¬ w.files.length = f := by omega
    simp only [World.newFile, List.count_cons]
    simp [hne]
    omega

theorem count_file {w : World} {f g : Nat} {x y : Open} (h : w.files[f]? = some x) (z : Open)
    (hg : (w.files.set f z)[g]? = some y) : (f = g ∧ y = z) ∨ (f ≠ g ∧ w.files[g]? = some y) := by
  rw [get_set h] at hg
  by_cases e : f = g
  · simp [e] at hg
    exact .inl ⟨e, hg.symm⟩
  · simp [e] at hg
    exact .inr ⟨e, hg⟩

theorem Bal.retain {w : World} {p : List Nat} (b : Bal w p) {f : Nat} (h : 0 < refs w f + p.count f) :
    Bal (w.retain f) (f :: p) := by
  obtain ⟨x, hx⟩ := b.file h
  have hc := b.count hx
  have e : w.retain f = { w with files := w.files.set f { x with count := x.count + 1 } } := by simp [World.retain, hx]
  rw [e]
  constructor
  · intro g y hy
    rw [refs_files]
    rcases count_file hx _ hy with ⟨rfl, rfl⟩ | ⟨hne, hy⟩
    · have : ¬ x.count = 0 := by omega
      simp [this] at hc
      simp
      omega
    · have := b.count hy
      simp [hne]
      exact this
  · intro g hg
    rw [refs_files]
    simp only [List.length_set] at hg
    have := b.out hg
    have hne : ¬ f = g := by
      rintro rfl
      omega
    simp [hne]
    omega

theorem Bal.release {w : World} {p : List Nat} {f : Nat} (b : Bal w (f :: p)) :
    ∃ w', w.release f = .ok w' ∧ Bal w' p ∧ w'.tables = w.tables ∧ w'.threads = w.threads ∧ w'.files.length = w.files.length := by
  have h : 0 < refs w f + (f :: p).count f := by simp; omega
  obtain ⟨x, hx⟩ := b.file h
  have hc := b.count hx
  have hx0 : ¬ x.count = 0 := by omega
  have hz : x.closes = 0 := by simpa [hx0] using hc.2
  have hcc : x.count = refs w f + p.count f + 1 := by
    have := hc.1
    simp at this
    omega
  have key : ∀ z : Open, z.count = x.count - 1 → z.closes = (if z.count = 0 then 1 else 0) → Bal { w with files := w.files.set f z } p := by
    intro z h1 h2
    constructor
    · intro g y hy
      rw [refs_files]
      rcases count_file hx _ hy with ⟨rfl, rfl⟩ | ⟨hne, hy⟩
      · exact ⟨by omega, h2⟩
      · have := b.count hy
        simp only [List.count_cons, beq_iff_eq, hne] at this
        simpa using this
    · intro g hg
      rw [refs_files]
      simp only [List.length_set] at hg
      have := b.out hg
      simp only [List.count_cons] at this
      omega
  unfold World.release
  rw [hx]
  simp only [hx0]
  by_cases h1 : x.count = 1
  · exact ⟨_, by simp [h1], key ⟨0, x.closes + 1⟩ (by simp [h1]) (by simp [hz]), rfl, rfl, by simp⟩
  · exact ⟨_, by simp [h1], key ⟨x.count - 1, x.closes⟩ rfl (by
      have : ¬ x.count - 1 = 0 := by omega
      simp [this, hz]), rfl, rfl, by simp⟩

theorem Bal.releaseAll {p : List Nat} : ∀ {l : List Nat} {w : World}, Bal w (l ++ p) →
    ∃ w', w.releaseAll l = .ok w' ∧ Bal w' p ∧ w'.tables = w.tables ∧ w'.threads = w.threads ∧ w'.files.length = w.files.length
  | [], w, b => ⟨w, rfl, b, rfl, rfl, rfl⟩
  | f :: l, w, b => by
    obtain ⟨w₁, e₁, b₁, t₁, h₁, n₁⟩ := Bal.release (p := l ++ p) b
    obtain ⟨w₂, e₂, b₂, t₂, h₂, n₂⟩ := Bal.releaseAll b₁
    exact ⟨w₂, by simp [World.releaseAll, e₁, e₂], b₂, by rw [t₂, t₁], by rw [h₂, h₁], by rw [n₂, n₁]⟩

theorem retain_same (w : World) (f : Nat) : (w.retain f).tables = w.tables ∧ (w.retain f).threads = w.threads ∧
    (w.retain f).files.length = w.files.length := by
  unfold World.retain
  split <;> simp

theorem retainAll_same : ∀ (l : List Nat) (w : World), (w.retainAll l).tables = w.tables ∧ (w.retainAll l).threads = w.threads ∧
    (w.retainAll l).files.length = w.files.length
  | [], w => ⟨rfl, rfl, rfl⟩
  | f :: l, w => by
    have h := retainAll_same l (w.retain f)
    have h' := retain_same w f
    exact ⟨h.1.trans h'.1, h.2.1.trans h'.2.1, h.2.2.trans h'.2.2⟩

theorem refs_same {w w' : World} (h₁ : w'.tables = w.tables) (h₂ : w'.threads = w.threads) (f : Nat) : refs w' f = refs w f := by
  simp [refs, h₁, h₂]

theorem Bal.perm {w : World} {p q : List Nat} (b : Bal w p) (h : ∀ f, q.count f = p.count f) : Bal w q :=
  b.move rfl fun f => by rw [h f]

theorem Bal.retainAll {p : List Nat} : ∀ {l : List Nat} {w : World}, Bal w p → (∀ f ∈ l, 0 < refs w f) → Bal (w.retainAll l) (l ++ p)
  | [], _, b, _ => b
  | f :: l, w, b, h => by
    have b₁ := b.retain (f := f) (by have := h f (by simp); omega)
    have hs := retain_same w f
    have b₂ := Bal.retainAll (l := l) b₁ (fun g hg => by
      rw [refs_same hs.1 hs.2.1]
      exact h g (by simp [hg]))
    refine b₂.perm fun g => ?_
    simp only [List.cons_append, List.count_cons, List.count_append]
    omega

theorem refs_table {w : World} {k : Nat} {tb : Table} (h : w.tables[k]? = some (some tb)) {e : Nat × Desc} (he : e ∈ tb.descs) :
    0 < refs w e.2.file := by
  have h1 := le_sum (tref e.2.file) h
  have h2 : 0 < tref e.2.file (some tb) := by
    simp only [tref, filesOf]
    exact List.count_pos_iff.2 (List.mem_map.2 ⟨e, he, rfl⟩)
  simp only [refs]
  omega

/-! ## Lists of descriptors -/

theorem look_iff {l : List (Nat × Desc)} (h : (l.map (·.1)).Nodup) {n : Nat} {d : Desc} : look l n = some d ↔ (n, d) ∈ l := by
  induction l with
  | nil => simp [look]
  | cons e l ih =>
    obtain ⟨m, x⟩ := e
    simp only [List.map_cons, List.nodup_cons] at h
    simp only [look, List.find?_cons]
    by_cases hm : m = n
    · subst hm
      simp only [BEq.rfl, Option.map_some, Option.some.injEq, List.mem_cons, Prod.mk.injEq, true_and]
      constructor
      · rintro rfl
        exact .inl rfl
      · rintro (rfl | hd)
        · rfl
        · exact absurd (List.mem_map.2 ⟨_, hd, rfl⟩) h.1
    · have : (m == n) = false := by simp [hm]
      simp only [this, List.mem_cons, Prod.mk.injEq]
      rw [show Option.map (·.2) (List.find? (·.1 == n) l) = look l n from rfl, ih h.2]
      constructor
      · exact .inr
      · rintro (⟨rfl, _⟩ | h)
        · exact absurd rfl hm
        · exact h

theorem look_none {l : List (Nat × Desc)} {n : Nat} : look l n = none ↔ ∀ d, (n, d) ∉ l := by
  simp only [look, Option.map_eq_none_iff, List.find?_eq_none, beq_iff_eq]
  constructor
  · intro h d hd
    exact h _ hd rfl
  · rintro h ⟨m, d⟩ he rfl
    exact h d he

theorem mem_drop {l : List (Nat × Desc)} {n m : Nat} {d : Desc} : (m, d) ∈ drop l n ↔ (m, d) ∈ l ∧ m ≠ n := by
  simp [drop]

theorem nodup_filter {l : List (Nat × Desc)} (h : (l.map (·.1)).Nodup) (q : Nat × Desc → Bool) : ((l.filter q).map (·.1)).Nodup :=
  (List.filter_sublist.map _).nodup h

theorem nodup_snoc {l : List (Nat × Desc)} (h : (l.map (·.1)).Nodup) {n : Nat} (hn : ∀ d, (n, d) ∉ l) (d : Desc) :
    ((l ++ [(n, d)]).map (·.1)).Nodup := by
  rw [List.map_append, List.nodup_append]
  refine ⟨h, by simp, ?_⟩
  rintro a ha b hb rfl
  simp at hb
  subst hb
  obtain ⟨⟨m, x⟩, hm, rfl⟩ := List.mem_map.1 ha
  exact hn x hm

theorem count_drop {l : List (Nat × Desc)} (h : (l.map (·.1)).Nodup) {n : Nat} {d : Desc} (hd : (n, d) ∈ l) (f : Nat) :
    (filesOf l).count f = (filesOf (drop l n)).count f + [d.file].count f := by
  induction l with
  | nil => simp at hd
  | cons e l ih =>
    obtain ⟨m, x⟩ := e
    simp only [List.map_cons, List.nodup_cons] at h
    rcases List.mem_cons.1 hd with he | hd
    · simp only [Prod.mk.injEq] at he
      obtain ⟨rfl, rfl⟩ := he
      have hl : drop l n = l := by
        apply List.filter_eq_self.2
        intro a ha
        simp only [bne_iff_ne, ne_eq]
        intro hc
        exact h.1 (List.mem_map.2 ⟨a, ha, hc⟩)
      have : drop ((n, d) :: l) n = l := by
        rw [← hl]
        simp [drop]
      rw [this]
      simp [filesOf, List.count_cons]
    · have hne : m ≠ n := by
        rintro rfl
        exact h.1 (List.mem_map.2 ⟨_, hd, rfl⟩)
      have := ih h.2 hd
      have e : drop ((m, x) :: l) n = (m, x) :: drop l n := by simp [drop, hne]
      rw [e]
      simp only [filesOf, List.map_cons, List.count_cons] at this ⊢
      omega

theorem count_filter (l : List (Nat × Desc)) (q : Nat × Desc → Bool) (f : Nat) :
    (filesOf l).count f = (filesOf (l.filter q)).count f + (filesOf (l.filter fun e => !q e)).count f := by
  induction l with
  | nil => rfl
  | cons e l ih =>
    cases hq : q e <;> simp only [List.filter_cons, hq, filesOf, List.map_cons, List.count_cons, Bool.not_false, Bool.not_true,
      if_true, Bool.false_eq_true, if_false] at ih ⊢ <;> omega

theorem filesOf_setFlag (l : List (Nat × Desc)) (q : Nat → Bool) (c : Bool) : filesOf (setFlag l q c) = filesOf l := by
  simp only [filesOf, setFlag, List.map_map]
  apply List.map_congr_left
  intro e _
  simp only [Function.comp]
  split <;> rfl

theorem keys_setFlag (l : List (Nat × Desc)) (q : Nat → Bool) (c : Bool) : (setFlag l q c).map (·.1) = l.map (·.1) := by
  simp only [setFlag, List.map_map]
  apply List.map_congr_left
  intro e _
  simp only [Function.comp]
  split <;> rfl

theorem mem_setFlag {l : List (Nat × Desc)} {q : Nat → Bool} {c : Bool} {n : Nat} {d : Desc} :
    (n, d) ∈ setFlag l q c ↔ (q n = false ∧ (n, d) ∈ l) ∨ (q n = true ∧ ∃ x, (n, x) ∈ l ∧ d = ⟨x.file, c⟩) := by
  simp only [setFlag, List.mem_map]
  constructor
  · rintro ⟨⟨m, x⟩, he, h⟩
    cases hq : q m
    · simp only [hq, Bool.false_eq_true, if_false, Prod.mk.injEq] at h
      obtain ⟨rfl, rfl⟩ := h
      exact .inl ⟨hq, he⟩
    · simp only [hq, if_true, Prod.mk.injEq] at h
      obtain ⟨rfl, rfl⟩ := h
      exact .inr ⟨hq, x, he, rfl⟩
  · rintro (⟨hq, he⟩ | ⟨hq, x, he, rfl⟩)
    · exact ⟨_, he, by simp [hq]⟩
    · exact ⟨_, he, by simp [hq]⟩

end Shadow.Files
