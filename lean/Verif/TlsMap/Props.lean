import Verif.TlsMap.Model

/-!
# C59: the thread-local table gives each thread its own values
-/
namespace Shadow.TlsMap

open Shadow.Base

/-! ## The specification: a map, the references held, and the values that initializers returned -/

structure Spec where
  m : Nat → Option Nat
  r : Nat → Nat
  p : Nat → Option (Nat × Nat)

def upd {α : Type} (f : Nat → α) (k : Nat) (x : α) : Nat → α := fun j => if j = k then x else f j

def Spec.empty : Spec := ⟨fun _ => none, fun _ => 0, fun _ => none⟩

/-- What an event does to the map; `none` if a map would not show this event. -/
def Spec.next (sp : Spec) : Ev → Option Spec
  | .absent _ k => if sp.m k = none then some sp else none
  | .found _ k v => if sp.m k = some v then some { sp with r := upd sp.r k (sp.r k + 1) } else none
  | .init t k v => if sp.m k = none then some { sp with p := upd sp.p t (some (k, v)) } else none
  | .inserted t k v => if sp.m k = none ∧ sp.p t = some (k, v) then some { sp with m := upd sp.m k (some v), r := upd sp.r k (sp.r k + 1) } else none
  | .removed _ k v => if sp.m k = v ∧ (v ≠ none → sp.r k = 0) then some { sp with m := upd sp.m k none } else none
  | .read _ k v => if sp.m k = some v then some sp else none
  | .unref _ k => if 0 < sp.r k then some { sp with r := upd sp.r k (sp.r k - 1) } else none
  | .forget => some ⟨fun _ => none, fun _ => 0, sp.p⟩

/-- What everything observed does to an empty map. -/
def replay (tr : List Ev) : Option Spec := tr.foldl (fun o e => o.bind (fun sp => sp.next e)) (some Spec.empty)

theorem replay_snoc (tr : List Ev) (e : Ev) : replay (tr ++ [e]) = (replay tr).bind (fun sp => sp.next e) := by
  simp [replay, List.foldl_append]

/-! ## The invariant -/

/-- What is true of a thread. -/
def PI (s : St) (sp : Spec) (t : Nat) : Pc → Prop
  | .idle => True
  | .scan _ k rest => (∀ i ∈ rest, i < s.slots.length) ∧ ∀ (i : Nat) (sl : Slot), s.slots[i]? = some sl → sl.key = some k → i ∈ rest
  | .init k => ∀ (i : Nat) (sl : Slot), s.slots[i]? = some sl → sl.key ≠ some k
  | .cas k v rest => (∀ i ∈ rest, i < s.slots.length) ∧ (∀ (i : Nat) (sl : Slot), s.slots[i]? = some sl → sl.key ≠ some k) ∧ sp.p t = some (k, v)
  | .fill k v i => ∃ sl : Slot, s.slots[i]? = some sl ∧ sl.key = some k ∧ sl.own = some t ∧ sl.val = none ∧ sp.p t = some (k, v)
  | .clear k i => ∃ sl : Slot, s.slots[i]? = some sl ∧ sl.key = some k ∧ sl.own = some t ∧ sl.val = none

/-- Thread `t` is between taking the slot and writing the value, or between taking the value and clearing the key. -/
def midway (s : St) (t k i : Nat) : Prop := s.ths[t]? = some (.clear k i) ∨ ∃ v, s.ths[t]? = some (.fill k v i)

structure SI (s : St) (i : Nat) (sl : Slot) : Prop where
  free : sl.key = none → sl.val = none ∧ sl.rel = true
  own : sl.own = sl.ins
  ins : ∀ k, sl.key = some k → ∃ t, sl.ins = some t
  mid : ∀ k t, sl.key = some k → sl.ins = some t → sl.val = none → midway s t k i
  cnt : sl.refs = s.held.countP (fun h => decide (h.i = i))

/-- The slot has this key and this value. -/
def Has (s : St) (i k v : Nat) : Prop := ∃ sl : Slot, s.slots[i]? = some sl ∧ sl.key = some k ∧ sl.val = some v

structure Inv (s : St) (sp : Spec) : Prop where
  slots : ∀ (i : Nat) (sl : Slot), s.slots[i]? = some sl → SI s i sl
  uniq : ∀ (i j k : Nat) (a b : Slot), s.slots[i]? = some a → s.slots[j]? = some b → a.key = some k → b.key = some k → i = j
  m : ∀ k v, sp.m k = some v ↔ ∃ i, Has s i k v
  r : ∀ k, sp.r k = s.held.countP (fun h => decide (h.k = k))
  held : ∀ h ∈ s.held, ∃ sl : Slot, s.slots[h.i]? = some sl ∧ sl.key = some h.k ∧ sl.own = some h.t ∧ sl.val ≠ none
  ths : ∀ (t : Nat) (p : Pc), s.ths[t]? = some p → PI s sp t p
  busy : ∀ (t k : Nat) (p : Pc) (i : Nat) (sl : Slot), s.ths[t]? = some p → p.key = some k → s.slots[i]? = some sl → sl.key = some k → sl.ins = some t
  excl : ∀ (t u k : Nat) (p q : Pc), s.ths[t]? = some p → s.ths[u]? = some q → p.key = some k → q.key = some k → t = u

theorem inv_new (N n : Nat) : Inv (St.new N n) Spec.empty := by
  have hs : ∀ (i : Nat) (sl : Slot), (St.new N n).slots[i]? = some sl → sl = ⟨none, none, 0, none, none, true⟩ := by
    intro i sl h
    exact (List.mem_replicate.1 (List.mem_of_getElem? h)).2
  have ht : ∀ (i : Nat) (p : Pc), (St.new N n).ths[i]? = some p → p = .idle := by
    intro i sl h
    exact (List.mem_replicate.1 (List.mem_of_getElem? h)).2
  constructor
  · intro i sl h
    cases hs i sl h
    refine ⟨fun _ => ⟨rfl, rfl⟩, rfl, ?_, ?_, rfl⟩
    · intro k e
      cases e
    · intro k t e
      cases e
  · intro i j k a b h1 _ e
    cases hs i a h1
    cases e
  · intro k v
    constructor
    · intro e
      cases e
    · rintro ⟨i, sl, h1, h2, -⟩
      cases hs i sl h1
      cases h2
  · intro k
    rfl
  · intro h hm
    cases hm
  · intro t p h
    cases ht t p h
    trivial
  · intro t k p i sl h1 h2
    cases ht t p h1
    cases h2
  · intro t u k p q h1 _ h2
    cases ht t p h1
    cases h2

/-- The key is in the table at most at one place, so the map has the value of the slot. -/
theorem Inv.m_of {s : St} {sp : Spec} (hi : Inv s sp) {i k : Nat} {sl : Slot} (h : s.slots[i]? = some sl) (hk : sl.key = some k) : sp.m k = sl.val := by
  cases hv : sl.val with
  | some v => exact (hi.m k v).2 ⟨i, sl, h, hk, hv⟩
  | none =>
    cases hm : sp.m k with
    | none => rfl
    | some w =>
      obtain ⟨j, sl', h1, h2, h3⟩ := (hi.m k w).1 hm
      have := hi.uniq i j k sl sl' h h1 hk h2
      subst this
      rw [h] at h1
      cases h1
      rw [hv] at h3
      cases h3

theorem Inv.m_none {s : St} {sp : Spec} (hi : Inv s sp) {k : Nat} (h : ∀ (i : Nat) (sl : Slot), s.slots[i]? = some sl → sl.key ≠ some k) : sp.m k = none := by
  cases hm : sp.m k with
  | none => rfl
  | some w =>
    obtain ⟨j, sl', h1, h2, -⟩ := (hi.m k w).1 hm
    exact absurd h2 (h j sl' h1)

/-- The references to a key are those to its slot. -/
theorem Inv.r_of {s : St} {sp : Spec} (hi : Inv s sp) {i k : Nat} {sl : Slot} (h : s.slots[i]? = some sl) (hk : sl.key = some k) : sp.r k = sl.refs := by
  rw [hi.r, (hi.slots i sl h).cnt]
  refine List.countP_congr ?_
  intro x hx
  obtain ⟨sl', h1, h2, -⟩ := hi.held x hx
  simp only [decide_eq_true_eq]
  constructor
  · intro e
    subst e
    exact hi.uniq _ _ _ _ _ h1 h h2 hk
  · intro e
    rw [e, h] at h1
    cases h1
    rw [hk] at h2
    cases h2
    rfl

theorem indexes_mem {N : Nat} {hash : Nat → Nat} {k i : Nat} (hN : 0 < N) : i ∈ indexesFrom N hash k ↔ i < N := by
  have := Nat.mod_lt (hash k) hN
  simp only [indexesFrom, List.mem_append, List.mem_range'_1, List.mem_range]
  omega

/-- A step that only moves thread `t` to a place in a call with the same key, or ends the call. -/
theorem inv_move {s : St} {sp sp' : Spec} (hi : Inv s sp) {t : Nat} {p q : Pc} (ht : s.ths[t]? = some p) (hm : sp'.m = sp.m) (hr : sp'.r = sp.r)
    (hp : ∀ u, u ≠ t → sp'.p u = sp.p u) (hk : q.key = none ∨ q.key = p.key ∨ ∃ k, q.key = some k ∧ (∀ (u : Nat) (x : Pc), s.ths[u]? = some x → x.key = some k → u = t) ∧
      ∀ (i : Nat) (sl : Slot), s.slots[i]? = some sl → sl.key = some k → sl.ins = some t)
    (hq : PI s sp' t q) (hn : ∀ k i, p ≠ .clear k i ∧ ∀ v, p ≠ .fill k v i) : Inv (s.put t q) sp' := by
  have hself : (s.ths.set t q)[t]? = some q := getElem?_set_self' ht
  have hother : ∀ u, u ≠ t → (s.ths.set t q)[u]? = s.ths[u]? := fun u hu => List.getElem?_set_ne (Ne.symm hu)
  have hmid : ∀ u k i, midway s u k i → midway (s.put t q) u k i := by
    intro u k i h
    have hne : u ≠ t := by
      intro e
      subst e
      rcases h with h | ⟨v, h⟩
      · rw [ht] at h
        exact (hn k i).1 (Option.some.inj h)
      · rw [ht] at h
        exact (hn k i).2 v (Option.some.inj h)
    unfold midway St.put
    rw [hother u hne]
    exact h
  have hPI : ∀ u x, u ≠ t → PI s sp u x → PI (s.put t q) sp' u x := by
    intro u x hu hx
    cases x <;> simp only [PI, St.put] at hx ⊢ <;> (try rw [hp u hu]) <;> exact hx
  have hPt : PI (s.put t q) sp' t q := by
    cases q <;> exact hq
  constructor
  · intro i sl h
    have S := hi.slots i sl h
    exact ⟨S.free, S.own, S.ins, fun k u h1 h2 h3 => hmid u k i (S.mid k u h1 h2 h3), S.cnt⟩
  · exact hi.uniq
  · intro k v
    rw [hm]
    exact hi.m k v
  · intro k
    rw [hr]
    exact hi.r k
  · exact hi.held
  · intro u x hx
    by_cases e : u = t
    · subst e
      have hx : (s.ths.set u q)[u]? = some x := hx
      rw [hself] at hx
      cases hx
      exact hPt
    · have hx : (s.ths.set t q)[u]? = some x := hx
      rw [hother u e] at hx
      exact hPI u x e (hi.ths u x hx)
  · intro u k x i sl hx hxk hs hsk
    have hx : (s.ths.set t q)[u]? = some x := hx
    by_cases e : u = t
    · subst e
      rw [hself] at hx
      cases hx
      rcases hk with h | h | ⟨k', h, h2, h3⟩
      · rw [h] at hxk
        cases hxk
      · exact hi.busy u k p i sl ht (h ▸ hxk) hs hsk
      · rw [h] at hxk
        cases hxk
        exact h3 i sl hs hsk
    · rw [hother u e] at hx
      exact hi.busy u k x i sl hx hxk hs hsk
  · intro u w k x y hx0 hy0 hxk hyk
    have hx : (s.ths.set t q)[u]? = some x := hx0
    have hy : (s.ths.set t q)[w]? = some y := hy0
    clear hx0 hy0
    have key : ∀ (w : Nat) (y : Pc), w ≠ t → s.ths[w]? = some y → y.key = some k → q.key = some k → False := by
      intro w y hw hy hyk hqk
      rcases hk with h | h | ⟨k', h, h2, h3⟩
      · rw [h] at hqk
        cases hqk
      · exact hw (hi.excl w t k y p hy ht hyk (h ▸ hqk))
      · rw [h] at hqk
        cases hqk
        exact hw (h2 w y hy hyk)
    by_cases e : u = t
    · subst e
      rw [hself] at hx
      cases hx
      by_cases e2 : w = u
      · exact e2.symm
      · rw [hother w e2] at hy
        exact (key w y e2 hy hyk hxk).elim
    · rw [hother u e] at hx
      by_cases e2 : w = t
      · subst e2
        rw [hself] at hy
        cases hy
        exact (key u x e hx hxk hyk).elim
      · rw [hother w e2] at hy
        exact hi.excl u w k x y hx hy hxk hyk

/-- A step of thread `t` that changes one slot, that of the key `k` or a vacant one. -/
theorem inv_slot {s s' : St} {sp sp' : Spec} (hi : Inv s sp) {t i k : Nat} {p q : Pc} {sl sl' : Slot} (ht : s.ths[t]? = some p) (hs : s.slots[i]? = some sl)
    (es : s'.slots = s.slots.set i sl') (et : s'.ths = s.ths.set t q)
    (hk : sl.key = none ∨ sl.key = some k) (hk' : sl'.key = none ∨ sl'.key = some k)
    (hx : ∀ (u : Nat) (x : Pc), u ≠ t → s.ths[u]? = some x → x.key ≠ some k)
    (hnew : sl.key = none → ∀ (j : Nat) (a : Slot), s.slots[j]? = some a → a.key ≠ some k)
    (hq : q.key = none ∨ q.key = some k)
    (S : SI s' i sl') (P : PI s' sp' t q) (hins : sl'.key = some k → sl'.ins = some t)
    (hm : sp'.m = upd sp.m k (if sl'.key = some k then sl'.val else none)) (hp : sp'.p = sp.p)
    (hr : ∀ k', sp'.r k' = s'.held.countP (fun h => decide (h.k = k')))
    (hc : ∀ j, j ≠ i → s'.held.countP (fun h => decide (h.i = j)) = s.held.countP (fun h => decide (h.i = j)))
    (hh : ∀ h ∈ s'.held, h.i = i → sl'.key = some h.k ∧ sl'.own = some h.t ∧ sl'.val ≠ none)
    (hh' : ∀ h ∈ s'.held, h.i ≠ i → h ∈ s.held)
    (hmid : ∀ k' j, midway s t k' j → j = i) : Inv s' sp' := by
  have hself : s'.ths[t]? = some q := by rw [et]; exact getElem?_set_self' ht
  have hother : ∀ u, u ≠ t → s'.ths[u]? = s.ths[u]? := fun u hu => by rw [et]; exact List.getElem?_set_ne (Ne.symm hu)
  have sself : s'.slots[i]? = some sl' := by rw [es]; exact getElem?_set_self' hs
  have sother : ∀ j, j ≠ i → s'.slots[j]? = s.slots[j]? := fun u hu => by rw [es]; exact List.getElem?_set_ne (Ne.symm hu)
  have slen : s'.slots.length = s.slots.length := by rw [es]; simp
  have nokey : ∀ (j : Nat) (a : Slot), j ≠ i → s.slots[j]? = some a → a.key ≠ some k := by
    intro j a hj ha hak
    rcases hk with h | h
    · exact hnew h j a ha hak
    · exact hj (hi.uniq j i k a sl ha hs hak h)
  have hPI : ∀ u x, u ≠ t → s.ths[u]? = some x → PI s sp u x → PI s' sp' u x := by
    intro u x hu hux h
    have hxk := hx u x hu hux
    have hkey : ∀ k', x.key = some k' → ∀ (j : Nat) (a : Slot), s'.slots[j]? = some a → a.key = some k' → s.slots[j]? = some a := by
      intro k' hk2 j a ha hak
      by_cases e : j = i
      · subst e
        rw [sself] at ha
        cases ha
        rcases hk' with h | h
        · rw [h] at hak
          cases hak
        · rw [h] at hak
          cases hak
          exact absurd hk2 hxk
      · rw [sother j e] at ha
        exact ha
    have hback : ∀ (k' j : Nat), x.key = some k' → ∀ a : Slot, s.slots[j]? = some a → a.key = some k' → s'.slots[j]? = some a := by
      intro k' j hk2 a ha hak
      by_cases e : j = i
      · subst e
        rw [hs] at ha
        cases ha
        rcases hk with h | h
        · rw [h] at hak
          cases hak
        · rw [h] at hak
          cases hak
          exact absurd hk2 hxk
      · rw [sother j e]
        exact ha
    cases x with
    | idle => trivial
    | scan op k2 rest =>
      simp only [PI] at h ⊢
      rw [slen]
      exact ⟨h.1, fun j a ha hak => h.2 j a (hkey k2 rfl j a ha hak) hak⟩
    | init k2 =>
      simp only [PI] at h ⊢
      exact fun j a ha hak => h j a (hkey k2 rfl j a ha hak) hak
    | cas k2 v rest =>
      simp only [PI] at h ⊢
      rw [slen, hp]
      exact ⟨h.1, fun j a ha hak => h.2.1 j a (hkey k2 rfl j a ha hak) hak, h.2.2⟩
    | fill k2 v j =>
      obtain ⟨a, h1, h2, h3⟩ := h
      exact ⟨a, hback k2 j rfl a h1 h2, h2, by rw [hp]; exact h3⟩
    | clear k2 j =>
      obtain ⟨a, h1, h2, h3⟩ := h
      exact ⟨a, hback k2 j rfl a h1 h2, h2, h3⟩
  constructor
  · intro j a ha
    by_cases e : j = i
    · subst e
      rw [sself] at ha
      cases ha
      exact S
    · rw [sother j e] at ha
      have S2 := hi.slots j a ha
      refine ⟨S2.free, S2.own, S2.ins, ?_, ?_⟩
      · intro k2 u h1 h2 h3
        have hmd := S2.mid k2 u h1 h2 h3
        have hne : u ≠ t := by
          intro e2
          subst e2
          exact e (hmid _ _ hmd)
        unfold midway
        rw [hother u hne]
        exact hmd
      · rw [S2.cnt, hc j e]
  · intro j l k2 a b ha hb hak hbk
    by_cases e : j = i
    · subst e
      rw [sself] at ha
      cases ha
      by_cases e2 : l = j
      · exact e2.symm
      · rw [sother l e2] at hb
        rcases hk' with h | h
        · rw [h] at hak
          cases hak
        · rw [h] at hak
          cases hak
          exact absurd hbk (nokey l b e2 hb)
    · rw [sother j e] at ha
      by_cases e2 : l = i
      · subst e2
        rw [sself] at hb
        cases hb
        rcases hk' with h | h
        · rw [h] at hbk
          cases hbk
        · rw [h] at hbk
          cases hbk
          exact absurd hak (nokey j a e ha)
      · rw [sother l e2] at hb
        exact hi.uniq j l k2 a b ha hb hak hbk
  · intro k2 v
    rw [hm]
    unfold upd
    by_cases e : k2 = k
    · subst e
      rw [if_pos rfl]
      constructor
      · intro h
        split at h
        · rename_i h2
          exact ⟨i, sl', sself, h2, h⟩
        · cases h
      · rintro ⟨j, a, ha, hak, hav⟩
        by_cases e2 : j = i
        · subst e2
          rw [sself] at ha
          cases ha
          rw [if_pos hak]
          exact hav
        · rw [sother j e2] at ha
          exact absurd hak (nokey j a e2 ha)
    · rw [if_neg e, hi.m k2 v]
      constructor
      · rintro ⟨j, a, ha, hak, hav⟩
        refine ⟨j, a, ?_, hak, hav⟩
        by_cases e2 : j = i
        · subst e2
          rw [hs] at ha
          cases ha
          rcases hk with h | h
          · rw [h] at hak
            cases hak
          · rw [h] at hak
            exact absurd (Option.some.inj hak).symm e
        · rw [sother j e2]
          exact ha
      · rintro ⟨j, a, ha, hak, hav⟩
        refine ⟨j, a, ?_, hak, hav⟩
        by_cases e2 : j = i
        · subst e2
          rw [sself] at ha
          cases ha
          rcases hk' with h | h
          · rw [h] at hak
            cases hak
          · rw [h] at hak
            exact absurd (Option.some.inj hak).symm e
        · rw [sother j e2] at ha
          exact ha
  · exact hr
  · intro h hm
    by_cases e : h.i = i
    · obtain ⟨h1, h2, h3⟩ := hh h hm e
      exact ⟨sl', by rw [e]; exact sself, h1, h2, h3⟩
    · obtain ⟨a, ha, h1⟩ := hi.held h (hh' h hm e)
      exact ⟨a, by rw [sother _ e]; exact ha, h1⟩
  · intro u x hux
    by_cases e : u = t
    · subst e
      rw [hself] at hux
      cases hux
      exact P
    · rw [hother u e] at hux
      exact hPI u x e hux (hi.ths u x hux)
  · intro u k2 x j a hux hxk ha hak
    by_cases e : u = t
    · subst e
      rw [hself] at hux
      cases hux
      rcases hq with h | h
      · rw [h] at hxk
        cases hxk
      · rw [h] at hxk
        cases hxk
        by_cases e2 : j = i
        · subst e2
          rw [sself] at ha
          cases ha
          exact hins hak
        · rw [sother j e2] at ha
          exact absurd hak (nokey j a e2 ha)
    · rw [hother u e] at hux
      have hne := hx u x e hux
      by_cases e2 : j = i
      · subst e2
        rw [sself] at ha
        cases ha
        rcases hk' with h | h
        · rw [h] at hak
          cases hak
        · rw [h] at hak
          cases hak
          exact absurd hxk hne
      · rw [sother j e2] at ha
        exact hi.busy u k2 x j a hux hxk ha hak
  · intro u w k2 x y hux hwy hxk hyk
    have key : ∀ (w : Nat) (y : Pc), w ≠ t → s.ths[w]? = some y → y.key = some k2 → q.key = some k2 → False := by
      intro w y hw hy hyk hqk
      rcases hq with h | h
      · rw [h] at hqk
        cases hqk
      · rw [h] at hqk
        cases hqk
        exact hx w y hw hy hyk
    by_cases e : u = t
    · subst e
      rw [hself] at hux
      cases hux
      by_cases e2 : w = u
      · exact e2.symm
      · rw [hother w e2] at hwy
        exact (key w y e2 hwy hyk hxk).elim
    · rw [hother u e] at hux
      by_cases e2 : w = t
      · subst e2
        rw [hself] at hwy
        cases hwy
        exact (key u x e hux hxk hyk).elim
      · rw [hother w e2] at hwy
        exact hi.excl u w k2 x y hux hwy hxk hyk

/-- What a list of events does to the map. -/
def Spec.after (sp : Spec) (es : List Ev) : Option Spec := es.foldl (fun o e => o.bind (fun sp => sp.next e)) (some sp)

/-- Why a step may panic: a key is removed while references are held; no vacant slot was found. -/
def Cause (s : St) (sp : Spec) : Act → Prop
  | .go t => (∃ k rest, s.ths[t]? = some (.scan .remove k rest) ∧ 0 < sp.r k) ∨ ∃ k v, s.ths[t]? = some (.cas k v [])
  | _ => False

def Fine (s : St) (sp : Spec) (a : Act) (r : R (St × List Ev)) : Prop :=
  match r with
  | .panic => Cause s sp a
  | .ok (s', e) => ∃ sp', sp.after e = some sp' ∧ Inv s' sp'

theorem Inv.others {s : St} {sp : Spec} (hi : Inv s sp) {t k : Nat} {p : Pc} (ht : s.ths[t]? = some p) (hk : p.key = some k) :
    ∀ (u : Nat) (x : Pc), u ≠ t → s.ths[u]? = some x → x.key ≠ some k :=
  fun u x hu hux hxk => hu (hi.excl u t k x p hux ht hxk hk)

theorem refHit_fine {s : St} {sp : Spec} (hi : Inv s sp) {t k i : Nat} {sl : Slot} {op : Op} {rest : List Nat} (ht : s.ths[t]? = some (.scan op k rest))
    (hs : s.slots[i]? = some sl) (hk : sl.key = some k) : Fine s sp (.go t) (s.refHit t k i sl) := by
  have hins := hi.busy t k _ i sl ht rfl hs hk
  have S := hi.slots i sl hs
  have hown : sl.own = some t := by rw [S.own]; exact hins
  have hval : sl.val ≠ none := by
    intro e
    rcases S.mid k t hk hins e with h | ⟨v, h⟩ <;> rw [ht] at h <;> cases h
  obtain ⟨v, hv⟩ := Option.ne_none_iff_exists'.1 hval
  have hm : sp.m k = some v := by rw [hi.m_of hs hk, hv]
  have hr := hi.r_of hs hk
  have e : s.refHit t k i sl = .ok (((s.slot i { sl with refs := sl.refs + 1 }).hold ⟨t, k, i⟩).put t .idle, [.found t k v]) := by
    simp [St.refHit, Slot.access, hown, hv]
  rw [e]
  refine ⟨{ sp with r := upd sp.r k (sp.r k + 1) }, by simp [Spec.after, Spec.next, hm], ?_⟩
  refine inv_slot hi (q := .idle) (sl' := { sl with refs := sl.refs + 1 }) ht hs rfl rfl (Or.inr hk) (Or.inr hk) (hi.others ht rfl) (by simp [hk]) (Or.inl rfl) ?_ trivial (fun _ => hins) ?_ rfl ?_ ?_ ?_ ?_ ?_
  · refine ⟨by simp [hk], S.own, S.ins, fun _ _ _ _ h => absurd h hval, ?_⟩
    simp [St.put, St.hold, St.slot, S.cnt]
  · simp only [hk, if_true]
    funext j
    unfold upd
    split
    · rename_i h
      rw [h, hm, hv]
    · rfl
  · intro k'
    simp only [St.put, St.hold, St.slot, List.countP_cons, decide_eq_true_eq, upd]
    by_cases h : k = k'
    · subst h
      simp [hi.r]
    · rw [if_neg h, if_neg (Ne.symm h), hi.r, Nat.add_zero]
  · intro j hj
    simp [St.put, St.hold, St.slot, Ne.symm hj]
  · intro h hm hhi
    simp only [St.put, St.hold, St.slot, List.mem_cons] at hm
    rcases hm with rfl | hm
    · exact ⟨hk, hown, hval⟩
    · obtain ⟨a, h1, h2, h3, h4⟩ := hi.held h hm
      rw [hhi, hs] at h1
      cases h1
      exact ⟨h2, h3, h4⟩
  · intro h hm hne
    simp only [St.put, St.hold, St.slot, List.mem_cons] at hm
    rcases hm with rfl | hm
    · exact absurd rfl hne
    · exact hm
  · intro k' j hmd
    rcases hmd with h | ⟨v, h⟩ <;> rw [ht] at h <;> cases h

theorem removeHit_fine {s : St} {sp : Spec} (hi : Inv s sp) {t k i : Nat} {sl : Slot} {rest : List Nat} (ht : s.ths[t]? = some (.scan .remove k rest))
    (hs : s.slots[i]? = some sl) (hk : sl.key = some k) : Fine s sp (.go t) (s.removeHit t k i sl) := by
  have hins := hi.busy t k _ i sl ht rfl hs hk
  have S := hi.slots i sl hs
  have hown : sl.own = some t := by rw [S.own]; exact hins
  have hval : sl.val ≠ none := by
    intro e
    rcases S.mid k t hk hins e with h | ⟨v, h⟩ <;> rw [ht] at h <;> cases h
  obtain ⟨v, hv⟩ := Option.ne_none_iff_exists'.1 hval
  have hm : sp.m k = some v := by rw [hi.m_of hs hk, hv]
  have hr := hi.r_of hs hk
  by_cases h0 : sl.refs = 0
  · have e : s.removeHit t k i sl = .ok ((s.slot i { sl with val := none }).put t (.clear k i), [.removed t k (some v)]) := by
      simp [St.removeHit, Slot.access, hown, hv, h0]
    rw [e]
    have hheld : ∀ h ∈ s.held, h.i ≠ i := by
      have := S.cnt
      rw [h0] at this
      intro h hm e
      have := (countP_zero _ _).1 this.symm h hm
      simp [e] at this
    refine ⟨{ sp with m := upd sp.m k none }, by simp [Spec.after, Spec.next, hm, hr, h0], ?_⟩
    refine inv_slot hi (q := .clear k i) (sl' := { sl with val := none }) ht hs rfl rfl (Or.inr hk) (Or.inr hk) (hi.others ht rfl) (by simp [hk]) (Or.inr rfl) ?_ ?_ (fun _ => hins) ?_ rfl hi.r ?_ ?_ ?_ ?_
    · refine ⟨by simp [hk], S.own, S.ins, ?_, S.cnt⟩
      intro k2 u h1 h2 _
      have h1 : sl.key = some k2 := h1
      have h2 : sl.ins = some u := h2
      rw [hk] at h1
      rw [hins] at h2
      cases h1
      cases h2
      exact Or.inl (getElem?_set_self' ht)
    · exact ⟨_, getElem?_set_self' hs, hk, hown, rfl⟩
    · simp [hk]
    · intro j hj
      rfl
    · intro h hm e
      exact absurd e (hheld h hm)
    · intro h hm _
      exact hm
    · intro k' j hmd
      rcases hmd with h | ⟨v, h⟩ <;> rw [ht] at h <;> cases h
  · have e : s.removeHit t k i sl = .panic := by
      simp [St.removeHit, Slot.access, hown, h0]
    rw [e]
    exact Or.inl ⟨k, rest, ht, by omega⟩

theorem scan_fine {s : St} {sp : Spec} (hi : Inv s sp) {t k : Nat} {op : Op} {rest : List Nat} (ht : s.ths[t]? = some (.scan op k rest)) :
    Fine s sp (.go t) (s.goScan t op k rest) := by
  have P := hi.ths t _ ht
  simp only [PI] at P
  have hnm : ∀ k' i, (Pc.scan op k rest) ≠ .clear k' i ∧ ∀ v, (Pc.scan op k rest) ≠ .fill k' v i := fun _ _ => ⟨by simp, by simp⟩
  cases rest with
  | nil =>
    have hno : ∀ (i : Nat) (sl : Slot), s.slots[i]? = some sl → sl.key ≠ some k := fun i sl h1 h2 => by cases P.2 i sl h1 h2
    have hm := hi.m_none hno
    cases op with
    | get => exact ⟨sp, by simp [Spec.after, Spec.next, hm], inv_move hi ht rfl rfl (fun _ _ => rfl) (Or.inl rfl) trivial hnm⟩
    | getOrInsert => exact ⟨sp, by simp [Spec.after], inv_move hi ht rfl rfl (fun _ _ => rfl) (Or.inr (Or.inl rfl)) hno hnm⟩
    | remove =>
      refine ⟨sp, ?_, inv_move hi ht rfl rfl (fun _ _ => rfl) (Or.inl rfl) trivial hnm⟩
      have : upd sp.m k none = sp.m := by
        funext j
        unfold upd
        split
        · rename_i h
          rw [h, hm]
        · rfl
      simp [Spec.after, Spec.next, hm, this]
  | cons i rest =>
    have hlt := P.1 i List.mem_cons_self
    have hs : s.slots[i]? = some s.slots[i] := List.getElem?_eq_getElem hlt
    simp only [St.goScan, hs, R.unwrap_some, R.bind_ok]
    by_cases hk : s.slots[i].key = some k
    · rw [if_pos hk]
      cases op with
      | get => exact refHit_fine hi ht hs hk
      | getOrInsert => exact refHit_fine hi ht hs hk
      | remove => exact removeHit_fine hi ht hs hk
    · rw [if_neg hk]
      refine ⟨sp, by simp [Spec.after], inv_move hi ht rfl rfl (fun _ _ => rfl) (Or.inr (Or.inl rfl)) ?_ hnm⟩
      refine ⟨fun j hj => P.1 j (List.mem_cons_of_mem _ hj), ?_⟩
      intro j sl hj hjk
      rcases List.mem_cons.1 (P.2 j sl hj hjk) with e | e
      · subst e
        rw [hs] at hj
        cases hj
        exact absurd hjk hk
      · exact e

theorem cas_fine {s : St} {sp : Spec} (hi : Inv s sp) {t k v : Nat} {rest : List Nat} (ht : s.ths[t]? = some (.cas k v rest)) :
    Fine s sp (.go t) (s.goCas t k v rest) := by
  have P := hi.ths t _ ht
  simp only [PI] at P
  cases rest with
  | nil => exact Or.inr ⟨k, v, ht⟩
  | cons i rest =>
    have hlt := P.1 i List.mem_cons_self
    have hs : s.slots[i]? = some s.slots[i] := List.getElem?_eq_getElem hlt
    simp only [St.goCas, hs, R.unwrap_some, R.bind_ok]
    by_cases hk : s.slots[i].key = none
    · rw [if_pos hk]
      have S := hi.slots i _ hs
      obtain ⟨hv, hrel⟩ := S.free hk
      have hheld : ∀ h ∈ s.held, h.i ≠ i := by
        intro h hm e
        obtain ⟨a, h1, h2, -⟩ := hi.held h hm
        rw [e, hs] at h1
        cases h1
        rw [hk] at h2
        cases h2
      refine ⟨sp, by simp [Spec.after], ?_⟩
      refine inv_slot hi (k := k) (q := .fill k v i) (sl' := { s.slots[i] with key := some k, ins := some t, own := if s.slots[i].rel then some t else s.slots[i].own }) ht hs rfl rfl (Or.inl hk) (Or.inr rfl) (hi.others ht rfl) (fun _ => P.2.1) (Or.inr rfl) ?_ ?_ (fun _ => rfl) ?_ rfl hi.r ?_ ?_ ?_ ?_
      · refine ⟨by simp, by simp [hrel], fun _ _ => ⟨t, rfl⟩, ?_, S.cnt⟩
        intro k2 u h1 h2 _
        cases h1
        cases h2
        exact Or.inr ⟨v, getElem?_set_self' ht⟩
      · exact ⟨_, getElem?_set_self' hs, rfl, by simp [hrel], hv, P.2.2⟩
      · funext j
        unfold upd
        split
        · rename_i h
          rw [h, hi.m_none P.2.1]
          simp [hv]
        · rfl
      · intro j hj
        rfl
      · intro h hm e
        exact absurd e (hheld h hm)
      · intro h hm _
        exact hm
      · intro k' j hmd
        rcases hmd with h | ⟨v, h⟩ <;> rw [ht] at h <;> cases h
    · rw [if_neg hk]
      exact ⟨sp, by simp [Spec.after], inv_move hi ht rfl rfl (fun _ _ => rfl) (Or.inr (Or.inl rfl)) ⟨fun j hj => P.1 j (List.mem_cons_of_mem _ hj), P.2⟩ (fun _ _ => ⟨by simp, by simp⟩)⟩

theorem fill_fine {s : St} {sp : Spec} (hi : Inv s sp) {t k v i : Nat} (ht : s.ths[t]? = some (.fill k v i)) : Fine s sp (.go t) (s.goFill t k v i) := by
  obtain ⟨sl, hs, hk, hown, hv, hp⟩ := hi.ths t _ ht
  have S := hi.slots i sl hs
  have hins : sl.ins = some t := by rw [← S.own]; exact hown
  have hm : sp.m k = none := by rw [hi.m_of hs hk, hv]
  have hheld : ∀ h ∈ s.held, h.i ≠ i := by
    intro h hm e
    obtain ⟨a, h1, h2, h3, h4⟩ := hi.held h hm
    rw [e, hs] at h1
    cases h1
    exact h4 hv
  have e : s.goFill t k v i = .ok (((s.slot i { sl with val := some v, refs := sl.refs + 1 }).hold ⟨t, k, i⟩).put t .idle, [.inserted t k v]) := by
    simp [St.goFill, Slot.access, hs, hown]
  rw [e]
  refine ⟨{ sp with m := upd sp.m k (some v), r := upd sp.r k (sp.r k + 1) }, by simp [Spec.after, Spec.next, hm, hp], ?_⟩
  refine inv_slot hi (q := .idle) (sl' := { sl with val := some v, refs := sl.refs + 1 }) ht hs rfl rfl (Or.inr hk) (Or.inr hk) (hi.others ht rfl) (by simp [hk]) (Or.inl rfl) ?_ trivial (fun _ => hins) ?_ rfl ?_ ?_ ?_ ?_ ?_
  · refine ⟨by simp [hk], S.own, S.ins, (fun _ _ _ _ h => by cases h), ?_⟩
    simp [St.put, St.hold, St.slot, S.cnt]
  · simp only [hk, if_true]
  · intro k'
    simp only [St.put, St.hold, St.slot, List.countP_cons, decide_eq_true_eq, upd]
    by_cases h : k = k'
    · subst h
      simp [hi.r]
    · rw [if_neg h, if_neg (Ne.symm h), hi.r, Nat.add_zero]
  · intro j hj
    simp [St.put, St.hold, St.slot, Ne.symm hj]
  · intro h hm hhi
    simp only [St.put, St.hold, St.slot, List.mem_cons] at hm
    rcases hm with rfl | hm
    · exact ⟨hk, hown, by simp⟩
    · exact absurd hhi (hheld h hm)
  · intro h hm hne
    simp only [St.put, St.hold, St.slot, List.mem_cons] at hm
    rcases hm with rfl | hm
    · exact absurd rfl hne
    · exact hm
  · intro k' j hmd
    rcases hmd with h | ⟨v, h⟩ <;> rw [ht] at h <;> cases h
    rfl

theorem clear_fine {s : St} {sp : Spec} (hi : Inv s sp) {t k i : Nat} (ht : s.ths[t]? = some (.clear k i)) : Fine s sp (.go t) (s.goClear t i) := by
  obtain ⟨sl, hs, hk, hown, hv⟩ := hi.ths t _ ht
  have S := hi.slots i sl hs
  have hm : sp.m k = none := by rw [hi.m_of hs hk, hv]
  have hheld : ∀ h ∈ s.held, h.i ≠ i := by
    intro h hm e
    obtain ⟨a, h1, h2, h3, h4⟩ := hi.held h hm
    rw [e, hs] at h1
    cases h1
    exact h4 hv
  have e : s.goClear t i = .ok ((s.slot i { sl with key := none, ins := none, own := none, rel := true }).put t .idle, []) := by
    simp [St.goClear, hs, hown]
  rw [e]
  refine ⟨sp, by simp [Spec.after], ?_⟩
  refine inv_slot hi (k := k) (q := .idle) (sl' := { sl with key := none, ins := none, own := none, rel := true }) ht hs rfl rfl (Or.inr hk) (Or.inl rfl) (hi.others ht rfl) (by simp [hk]) (Or.inl rfl) ?_ trivial (by simp) ?_ rfl hi.r ?_ ?_ ?_ ?_
  · exact ⟨fun _ => ⟨hv, rfl⟩, rfl, by simp, by simp, S.cnt⟩
  · funext j
    unfold upd
    split
    · rename_i h
      rw [h, hm]
      simp
    · rfl
  · intro j hj
    rfl
  · intro h hm e
    exact absurd e (hheld h hm)
  · intro h hm _
    exact hm
  · intro k' j hmd
    rcases hmd with h | ⟨v, h⟩ <;> rw [ht] at h <;> cases h
    rfl

theorem countP_eraseIdx {α : Type} (f : α → Bool) : ∀ (l : List α) (j : Nat) (x : α), l[j]? = some x → (l.eraseIdx j).countP f + (f x).toNat = l.countP f
  | [], _, _, h => by simp at h
  | y :: l, 0, x, h => by
      simp only [List.getElem?_cons_zero, Option.some.injEq] at h
      subst h
      simp only [List.eraseIdx_cons_zero, List.countP_cons]
      cases f y <;> simp
  | y :: l, j + 1, x, h => by
      simp only [List.getElem?_cons_succ] at h
      have := countP_eraseIdx f l j x h
      simp only [List.eraseIdx_cons_succ, List.countP_cons]
      omega

theorem unref_fine {s : St} {sp : Spec} (hi : Inv s sp) {t j : Nat} {h : Held} (hj : s.held[j]? = some h) (ht : s.ths[t]? = some .idle) (hht : h.t = t) :
    Fine s sp (.unref t j) (s.dropRef j h) := by
  have hmem := List.mem_of_getElem? hj
  obtain ⟨sl, hs, hk, hown, hv⟩ := hi.held h hmem
  have S := hi.slots h.i sl hs
  have hpos : 0 < sl.refs := by
    rw [S.cnt, countP_pos]
    exact ⟨j, h, hj, by simp⟩
  have hr := hi.r_of hs hk
  have e : s.dropRef j h = .ok ({ s.slot h.i { sl with refs := sl.refs - 1 } with held := s.held.eraseIdx j }, [.unref h.t h.k]) := by
    simp [St.dropRef, Slot.access, hs, hown, hpos]
  rw [e]
  have hins : sl.ins = some t := by rw [← S.own, hown, hht]
  refine ⟨{ sp with r := upd sp.r h.k (sp.r h.k - 1) }, by simp [Spec.after, Spec.next, hr, hpos], ?_⟩
  have hc := fun f => countP_eraseIdx f s.held j h hj
  refine inv_slot hi (k := h.k) (q := .idle) (sl' := { sl with refs := sl.refs - 1 }) ht hs rfl ?_ (Or.inr hk) (Or.inr hk) ?_ (by simp [hk]) (Or.inl rfl) ?_ trivial (fun _ => hins) ?_ rfl ?_ ?_ ?_ ?_ ?_
  · show s.ths = s.ths.set t .idle
    refine List.ext_getElem? ?_
    intro u
    by_cases e : t = u
    · subst e
      rw [getElem?_set_self' ht, ht]
    · rw [List.getElem?_set_ne e]
  · intro u x hu hux hxk
    have := hi.busy u h.k x h.i sl hux hxk hs hk
    rw [hins] at this
    exact hu (Option.some.inj this).symm
  · refine ⟨by simp [hk], S.own, S.ins, fun _ _ _ _ h => absurd h hv, ?_⟩
    have := hc (fun x => decide (x.i = h.i))
    simp only [decide_true, Bool.toNat_true] at this
    rw [← S.cnt] at this
    show sl.refs - 1 = (s.held.eraseIdx j).countP _
    omega
  · simp only [hk, if_true]
    funext l
    unfold upd
    split
    · rename_i h
      rw [h, hi.m_of hs hk]
    · rfl
  · intro k'
    have := hc (fun x => decide (x.k = k'))
    simp only [upd]
    by_cases e : k' = h.k
    · subst e
      simp only [decide_true, Bool.toNat_true] at this
      rw [if_pos rfl, hi.r]
      show _ = (s.held.eraseIdx j).countP _
      omega
    · rw [if_neg e, hi.r]
      simp only [Ne.symm e, decide_false, Bool.toNat_false] at this
      show _ = (s.held.eraseIdx j).countP _
      omega
  · intro l hl
    have := hc (fun x => decide (x.i = l))
    simp only [Ne.symm hl, decide_false, Bool.toNat_false] at this
    show (s.held.eraseIdx j).countP _ = _
    omega
  · intro g hm hgi
    obtain ⟨a, h1, h2, h3, h4⟩ := hi.held g (List.mem_of_mem_eraseIdx hm)
    rw [hgi, hs] at h1
    cases h1
    exact ⟨h2, h3, h4⟩
  · intro g hm _
    exact List.mem_of_mem_eraseIdx hm
  · intro k' l hmd
    rcases hmd with h | ⟨v, h⟩ <;> rw [ht] at h <;> cases h

theorem inv_forget {s : St} {sp : Spec} : Inv s.forgetAll ⟨fun _ => none, fun _ => 0, sp.p⟩ := by
  have hs : ∀ (i : Nat) (sl : Slot), s.forgetAll.slots[i]? = some sl → sl.key = none ∧ sl.val = none ∧ sl.refs = 0 ∧ sl.ins = none ∧ sl.own = none ∧ sl.rel = true := by
    intro i sl h
    simp only [St.forgetAll, List.getElem?_map] at h
    obtain ⟨a, -, rfl⟩ := Option.map_eq_some_iff.1 h
    exact ⟨rfl, rfl, rfl, rfl, rfl, rfl⟩
  have ht : ∀ (i : Nat) (p : Pc), s.forgetAll.ths[i]? = some p → p = .idle := by
    intro i p h
    simp only [St.forgetAll, List.getElem?_map] at h
    obtain ⟨a, -, rfl⟩ := Option.map_eq_some_iff.1 h
    rfl
  constructor
  · intro i sl h
    obtain ⟨h1, h2, h3, h4, h5, h6⟩ := hs i sl h
    refine ⟨fun _ => ⟨h2, h6⟩, by rw [h4, h5], ?_, ?_, h3⟩
    · intro k e
      rw [h1] at e
      cases e
    · intro k t e
      rw [h1] at e
      cases e
  · intro i j k a b h1 _ e
    rw [(hs i a h1).1] at e
    cases e
  · intro k v
    constructor
    · intro e
      cases e
    · rintro ⟨i, sl, h1, h2, -⟩
      rw [(hs i sl h1).1] at h2
      cases h2
  · intro k
    rfl
  · intro h hm
    cases hm
  · intro t p h
    cases ht t p h
    trivial
  · intro t k p i sl h1 h2
    cases ht t p h1
    cases h2
  · intro t u k p q h1 _ h2
    cases ht t p h1
    cases h2

theorem step_fine {N : Nat} {hash : Nat → Nat} {s : St} {sp : Spec} (hi : Inv s sp) (hN : 0 < N) (hlen : s.slots.length = N) {a : Act} (ha : allowed s a) {r : R (St × List Ev)}
    (h : step N hash s a = some r) : Fine s sp a r := by
  cases a with
  | call t op k =>
    simp only [step] at h
    split at h
    · rename_i ht
      cases h
      unfold St.begin
      simp only [hN, decide_true, R.assert_true, R.bind_ok, R.pure_eq]
      refine ⟨sp, by simp [Spec.after], inv_move hi ht rfl rfl (fun _ _ => rfl) (Or.inr (Or.inr ⟨k, rfl, ha.1, fun i sl h1 h2 => ha.2 sl (List.mem_of_getElem? h1) h2⟩)) ?_ (fun _ _ => ⟨by simp, by simp⟩)⟩
      refine ⟨fun i hm => ?_, fun i sl h1 _ => ?_⟩
      · rw [hlen]
        exact (indexes_mem hN).1 hm
      · rw [indexes_mem hN, ← hlen]
        exact (List.getElem?_eq_some_iff.1 h1).1
    · cases h
  | go t =>
    simp only [step] at h
    split at h
    · rename_i p ht
      cases p with
      | idle => cases h
      | init k => cases h
      | scan op k rest =>
        cases h
        exact scan_fine hi ht
      | cas k v rest =>
        cases h
        exact cas_fine hi ht
      | fill k v i =>
        cases h
        exact fill_fine hi ht
      | clear k i =>
        cases h
        exact clear_fine hi ht
    · cases h
  | init t v =>
    simp only [step] at h
    split at h
    · rename_i k ht
      cases h
      have P := hi.ths t _ ht
      have hm := hi.m_none P
      refine ⟨{ sp with p := upd sp.p t (some (k, v)) }, by simp [Spec.after, Spec.next, hm], inv_move hi ht rfl rfl (fun u hu => by simp [upd, hu]) (Or.inr (Or.inl rfl)) ?_ (fun _ _ => ⟨by simp, by simp⟩)⟩
      refine ⟨fun i hm => ?_, P, by simp [upd]⟩
      rw [hlen]
      exact (indexes_mem hN).1 hm
    · cases h
  | read t j =>
    simp only [step] at h
    split at h
    · rename_i g hg
      split at h
      · cases h
        obtain ⟨sl, hs, hk, hown, hv⟩ := hi.held g (List.mem_of_getElem? hg)
        obtain ⟨v, hv⟩ := Option.ne_none_iff_exists'.1 hv
        have e : s.readRef g = .ok (s, [.read g.t g.k v]) := by
          simp [St.readRef, Slot.access, hs, hown, hv]
        rw [e]
        exact ⟨sp, by simp [Spec.after, Spec.next, hi.m_of hs hk, hv], hi⟩
      · cases h
    · cases h
  | unref t j =>
    simp only [step] at h
    split at h
    · rename_i g hg ht
      split at h
      · rename_i e
        cases h
        exact unref_fine hi hg ht e
      · cases h
    · cases h
  | fork t =>
    simp only [step] at h
    split at h
    · cases h
      exact ⟨_, rfl, inv_forget⟩
    · cases h

theorem assert_bind_length {b : Bool} {f : Unit → R (St × List Ev)} {x : St × List Ev} (h : (R.assert b >>= f) = .ok x) : f () = .ok x := by
  obtain ⟨u, -, h⟩ := R.bind_eq_ok.1 h
  exact h

theorem step_length {N : Nat} {hash : Nat → Nat} {s s' : St} {a : Act} {e : List Ev} (h : step N hash s a = some (.ok (s', e))) : s'.slots.length = s.slots.length := by
  have hset : ∀ (i : Nat) (sl : Slot), (s.slots.set i sl).length = s.slots.length := fun i sl => List.length_set
  have hhit : ∀ (t k i : Nat) (sl : Slot), s.refHit t k i sl = .ok (s', e) → s'.slots.length = s.slots.length := by
    intro t k i sl h
    unfold St.refHit Slot.access at h
    have h := assert_bind_length h
    obtain ⟨v, -, h⟩ := R.bind_eq_ok.1 h
    cases h
    exact hset _ _
  have hrem : ∀ (t k i : Nat) (sl : Slot), s.removeHit t k i sl = .ok (s', e) → s'.slots.length = s.slots.length := by
    intro t k i sl h
    unfold St.removeHit Slot.access at h
    have h := assert_bind_length (assert_bind_length h)
    obtain ⟨v, -, h⟩ := R.bind_eq_ok.1 h
    cases h
    exact hset _ _
  cases a with
  | call t op k =>
    simp only [step] at h
    split at h
    · have h := assert_bind_length (Option.some.inj h)
      cases h
      rfl
    · cases h
  | go t =>
    simp only [step] at h
    split at h
    · rename_i p ht
      cases p with
      | idle => cases h
      | init k => cases h
      | scan op k rest =>
        have h : s.goScan t op k rest = .ok (s', e) := Option.some.inj h
        cases rest with
        | nil => cases op <;> (cases h; rfl)
        | cons i rest =>
          obtain ⟨sl, -, h⟩ := R.bind_eq_ok.1 h
          split at h
          · cases op with
            | get => exact hhit _ _ _ _ h
            | getOrInsert => exact hhit _ _ _ _ h
            | remove => exact hrem _ _ _ _ h
          · cases h
            rfl
      | cas k v rest =>
        have h : s.goCas t k v rest = .ok (s', e) := Option.some.inj h
        cases rest with
        | nil => cases h
        | cons i rest =>
          obtain ⟨sl, -, h⟩ := R.bind_eq_ok.1 h
          split at h
          · cases h
            exact hset _ _
          · cases h
            rfl
      | fill k v i =>
        have h : s.goFill t k v i = .ok (s', e) := Option.some.inj h
        obtain ⟨sl, -, h⟩ := R.bind_eq_ok.1 h
        have h := assert_bind_length h
        cases h
        exact hset _ _
      | clear k i =>
        have h : s.goClear t i = .ok (s', e) := Option.some.inj h
        obtain ⟨sl, -, h⟩ := R.bind_eq_ok.1 h
        cases h
        exact hset _ _
    · cases h
  | init t v =>
    simp only [step] at h
    split at h
    · cases h
      rfl
    · cases h
  | read t j =>
    simp only [step] at h
    split at h
    · split at h
      · have h := Option.some.inj h
        obtain ⟨sl, -, h⟩ := R.bind_eq_ok.1 h
        have h := assert_bind_length h
        obtain ⟨v, -, h⟩ := R.bind_eq_ok.1 h
        cases h
        rfl
      · cases h
    · cases h
  | unref t j =>
    simp only [step] at h
    split at h
    · split at h
      · have h := Option.some.inj h
        obtain ⟨sl, -, h⟩ := R.bind_eq_ok.1 h
        have h := assert_bind_length (assert_bind_length h)
        cases h
        exact hset _ _
      · cases h
    · cases h
  | fork t =>
    simp only [step] at h
    split at h
    · cases h
      simp [St.forgetAll]
    · cases h

theorem replay_append (tr e : List Ev) : replay (tr ++ e) = (replay tr).bind (fun sp => sp.after e) := by
  have key : ∀ (e : List Ev) (o : Option Spec), e.foldl (fun o e => o.bind (fun sp => sp.next e)) o = o.bind (fun sp => sp.after e) := by
    intro e
    induction e with
    | nil => intro o; cases o <;> rfl
    | cons x e ih =>
      intro o
      rw [List.foldl_cons, ih]
      cases o with
      | none => rfl
      | some sp =>
        show ((sp.next x).bind _) = sp.after (x :: e)
        unfold Spec.after
        rw [List.foldl_cons, ih]
        rfl
  unfold replay
  rw [List.foldl_append, key]

theorem run_inv {N n : Nat} (hN : 0 < N) {hash : Nat → Nat} {s : St} {tr : List Ev} (h : Run N hash n s tr) :
    ∃ sp, replay tr = some sp ∧ Inv s sp ∧ s.slots.length = N := by
  induction h with
  | init => exact ⟨Spec.empty, rfl, inv_new N n, by simp [St.new]⟩
  | step h0 ha hs ih =>
    obtain ⟨sp, h1, h2, h3⟩ := ih
    obtain ⟨sp', h4, h5⟩ := step_fine h2 hN h3 ha hs
    refine ⟨sp', ?_, h5, by rw [step_length hs, h3]⟩
    rw [replay_append, h1]
    exact h4

/-! ## Running examples -/

/-- `allowed` as a computation. -/
def allowedB (s : St) : Act → Bool
  | .call t _ k => (List.range s.ths.length).all (fun u => decide ((s.ths[u]?.bind Pc.key) = some k → u = t)) && s.slots.all (fun sl => decide (sl.key = some k → sl.ins = some t))
  | _ => true

theorem allowedB_ok {s : St} {a : Act} (h : allowedB s a = true) : allowed s a := by
  cases a with
  | call t op k =>
    simp only [allowedB, Bool.and_eq_true, List.all_eq_true, List.mem_range, decide_eq_true_eq] at h
    refine ⟨?_, h.2⟩
    intro u p hu hp
    exact h.1 u (List.getElem?_eq_some_iff.1 hu).1 (by rw [hu]; exact hp)
  | _ => trivial

/-- Run a list of allowed actions, with the number of keys in the table at each moment. -/
def exec (N : Nat) (hash : Nat → Nat) (s : St) : List Act → Option (R (St × List Ev) × List Nat)
  | [] => some (.ok (s, []), [s.slots.countP (fun sl => sl.key.isSome)])
  | a :: as =>
    if allowedB s a then match step N hash s a with
      | none => none
      | some .panic => some (.panic, [s.slots.countP (fun sl => sl.key.isSome)])
      | some (.ok (s', e)) => match exec N hash s' as with
        | none => none
        | some (.panic, c) => some (.panic, s.slots.countP (fun sl => sl.key.isSome) :: c)
        | some (.ok (s'', e'), c) => some (.ok (s'', e ++ e'), s.slots.countP (fun sl => sl.key.isSome) :: c)
    else none

theorem run_exec {N n : Nat} {hash : Nat → Nat} : ∀ {as : List Act} {s s' : St} {tr e : List Ev} {c : List Nat}, Run N hash n s tr → exec N hash s as = some (.ok (s', e), c) →
    Run N hash n s' (tr ++ e)
  | [], s, s', tr, e, c, h, he => by
      cases he
      rw [List.append_nil]
      exact h
  | a :: as, s, s', tr, e, c, h, he => by
      unfold exec at he
      split at he
      · rename_i ha
        split at he
        · cases he
        · cases he
        · rename_i s1 e1 h1
          split at he
          · cases he
          · cases he
          · rename_i s2 e2 c2 h2
            cases he
            rw [← List.append_assoc]
            exact run_exec (.step h (allowedB_ok ha) h1) h2
      · cases he

/-- A table of two slots.  Thread 0 inserts key 2 and removes it; thread 1 inserts key 4, whose first slot is the same. -/
def exActs : List Act := [.call 0 .getOrInsert 2, .go 0, .call 1 .getOrInsert 4, .go 0, .go 0, .go 1, .init 0 20, .go 0, .go 1, .go 0, .go 1, .init 1 40, .go 1, .go 1,
  .read 0 0, .unref 0 0, .call 0 .remove 2, .go 0, .go 1, .go 0, .call 0 .get 2, .go 0, .go 0, .go 0, .read 1 0]

def exTrace : List Ev := [.init 0 2 20, .inserted 0 2 20, .init 1 4 40, .read 0 2 20, .unref 0 2, .removed 0 2 (some 20), .inserted 1 4 40, .absent 0 2, .read 1 4 40]

def exEnd : St := ⟨[⟨none, none, 0, none, none, true⟩, ⟨some 4, some 40, 1, some 1, some 1, true⟩], [.idle, .idle], [⟨1, 4, 1⟩]⟩

theorem ex_exec : (exec 2 id (St.new 2 2) exActs).map Prod.fst = some (.ok (exEnd, exTrace)) := by decide

theorem ex_run : Run 2 id 2 exEnd exTrace := by
  have h := ex_exec
  obtain ⟨⟨r, c⟩, h1, h2⟩ := Option.map_eq_some_iff.1 h
  have h2 : r = _ := h2
  subst h2
  exact run_exec (tr := []) .init h1

/-! ## The property -/

/-- However the steps of the threads interleave, they observe what a map would show them: each search finds the value that was inserted for its
key and not removed, the initializer runs only when there is none, a removal takes the value out once, and a reference reads the value it
was made for.  Threads that use other keys, and keys with the same first slot, make no difference. -/
theorem C59_map {N n : Nat} (hN : 0 < N) {hash : Nat → Nat} {s : St} {tr : List Ev} (h : Run N hash n s tr) : ∃ sp, replay tr = some sp := by
  obtain ⟨sp, h1, -⟩ := run_inv hN h
  exact ⟨sp, h1⟩

example : ∃ sp, replay exTrace = some sp := C59_map (by decide) ex_run

/-- The specification tells a wrong observation: a search that misses the key that is there. -/
example : (replay [.init 0 2 20, .inserted 0 2 20, .absent 0 2]).isNone = true := by decide

/-- A step panics only when a key is removed while references to its value are held, or when an insertion has found all slots taken.  In
particular no value or count is accessed by two threads without order between them, and no vacant or half-made entry is used. -/
theorem C59_panics {N n : Nat} (hN : 0 < N) {hash : Nat → Nat} {s : St} {tr : List Ev} (h : Run N hash n s tr) {a : Act} (ha : allowed s a)
    (hp : step N hash s a = some .panic) : ∃ sp, replay tr = some sp ∧ Cause s sp a := by
  obtain ⟨sp, h1, h2, h3⟩ := run_inv hN h
  exact ⟨sp, h1, step_fine h2 hN h3 ha hp⟩

/-- Removing a key while a reference to its value is held does panic, when the search arrives at it. -/
theorem C59_remove_held {N n : Nat} (hN : 0 < N) {hash : Nat → Nat} {s : St} {tr : List Ev} (h : Run N hash n s tr) {sp : Spec} (hsp : replay tr = some sp) {t k i : Nat}
    {rest : List Nat} {sl : Slot} (ht : s.ths[t]? = some (.scan .remove k (i :: rest))) (hs : s.slots[i]? = some sl) (hk : sl.key = some k) (hr : 0 < sp.r k) :
    step N hash s (.go t) = some .panic := by
  obtain ⟨sp', h1, hi, h3⟩ := run_inv hN h
  rw [hsp] at h1
  cases h1
  have := hi.r_of hs hk
  have h0 : sl.refs ≠ 0 := by omega
  have hins := hi.busy t k _ i sl ht rfl hs hk
  have hown : sl.own = some t := by rw [(hi.slots i sl hs).own]; exact hins
  simp only [step, ht, St.go, St.goScan, hs, R.unwrap_some, R.bind_ok, hk, if_true, St.removeHit, Slot.access, hown, decide_true, R.assert_true, h0, decide_false, R.assert_false, R.bind_panic]

example : (exec 2 id (St.new 2 1) [.call 0 .getOrInsert 2, .go 0, .go 0, .go 0, .init 0 20, .go 0, .go 0, .call 0 .remove 2, .go 0]).map Prod.fst = some .panic := by decide

/-- An insertion that is not disturbed by other threads finds a slot if there is one among those it still has to look at; at first these are
all slots (`C59_indexes`). -/
theorem C59_insert_alone {N n : Nat} (hN : 0 < N) {hash : Nat → Nat} {s : St} {tr : List Ev} (h : Run N hash n s tr) {t k v : Nat} {rest : List Nat}
    (ht : s.ths[t]? = some (.cas k v rest)) (hv : ∃ i ∈ rest, ∃ sl, s.slots[i]? = some sl ∧ sl.key = none) :
    ∃ m s' c, exec N hash s (List.replicate m (.go t)) = some (.ok (s', [.inserted t k v]), c) := by
  induction rest generalizing s tr with
  | nil => obtain ⟨i, hi, -⟩ := hv; cases hi
  | cons i rest ih =>
    obtain ⟨sp, h1, hi, h3⟩ := run_inv hN h
    have P := hi.ths t _ ht
    have hlt := P.1 i List.mem_cons_self
    have hs : s.slots[i]? = some s.slots[i] := List.getElem?_eq_getElem hlt
    by_cases hk : s.slots[i].key = none
    · have hrel := ((hi.slots i _ hs).free hk).2
      have e1 : step N hash s (.go t) = some (.ok ((s.slot i { s.slots[i] with key := some k, ins := some t, own := some t }).put t (.fill k v i), [])) := by
        simp [step, ht, St.go, St.goCas, hs, hk, hrel]
      have e2 : ∃ s2, step N hash ((s.slot i { s.slots[i] with key := some k, ins := some t, own := some t }).put t (.fill k v i)) (.go t) = some (.ok (s2, [.inserted t k v])) := by
        have g1 : (s.ths.set t (.fill k v i))[t]? = some (.fill k v i) := getElem?_set_self' ht
        have g2 : (s.slots.set i { s.slots[i] with key := some k, ins := some t, own := some t })[i]? = some { s.slots[i] with key := some k, ins := some t, own := some t } := getElem?_set_self' hs
        exact ⟨_, by simp only [step, St.put, St.slot, g1, g2, St.go, St.goFill, R.unwrap_some, R.bind_ok, Slot.access, decide_true, R.assert_true, R.pure_eq]; rfl⟩
      obtain ⟨s2, e2⟩ := e2
      refine ⟨2, s2, ?_⟩
      simp [List.replicate, exec, allowedB, e1, e2]
    · have e1 : step N hash s (.go t) = some (.ok (s.put t (.cas k v rest), [])) := by
        simp [step, ht, St.go, St.goCas, hs, hk]
      have hv' : ∃ j ∈ rest, ∃ sl, (s.put t (.cas k v rest)).slots[j]? = some sl ∧ sl.key = none := by
        obtain ⟨j, hj, sl, h4, h5⟩ := hv
        rcases List.mem_cons.1 hj with e | e
        · subst e
          rw [hs] at h4
          cases h4
          exact absurd h5 hk
        · exact ⟨j, e, sl, h4, h5⟩
      obtain ⟨m, s', c, e2⟩ := ih (.step (a := .go t) h trivial e1) (getElem?_set_self' ht) hv'
      refine ⟨m + 1, s', s.slots.countP (fun sl => sl.key.isSome) :: c, ?_⟩
      rw [List.replicate_succ]
      unfold exec
      simp only [allowedB, if_true, e1, e2]
      rfl

/-- Every search looks at every slot of the table once, whatever the hash function. -/
theorem C59_indexes {N : Nat} (hN : 0 < N) (hash : Nat → Nat) (k : Nat) : (∀ i, i ∈ indexesFrom N hash k ↔ i < N) ∧ (indexesFrom N hash k).Nodup ∧ (indexesFrom N hash k).head? = some (hash k % N) := by
  refine ⟨fun i => indexes_mem hN, ?_, ?_⟩
  · unfold indexesFrom
    rw [List.nodup_append]
    refine ⟨List.nodup_range', List.nodup_range, ?_⟩
    intro a ha b hb
    rw [List.mem_range'_1] at ha
    rw [List.mem_range] at hb
    omega
  · have := Nat.mod_lt (hash k) hN
    unfold indexesFrom
    obtain ⟨d, hd⟩ : ∃ d, N - hash k % N = d + 1 := ⟨N - hash k % N - 1, by omega⟩
    simp only [hd, List.range'_succ]
    rfl

example : indexesFrom 4 id 6 = [2, 3, 0, 1] := by decide

/-- The values that dropping the table drops are exactly those in the map, each once; it does not panic, as long as no reference is held. -/
theorem C59_drop {N n : Nat} (hN : 0 < N) {hash : Nat → Nat} {s : St} {tr : List Ev} (h : Run N hash n s tr) {sp : Spec} (hsp : replay tr = some sp)
    (hq : ∀ p ∈ s.ths, p = .idle) (hh : s.held = []) :
    ∃ l : List (Nat × Nat), dropAll s.slots = .ok (l.map Prod.snd) ∧ (l.map Prod.fst).Nodup ∧ ∀ k v, sp.m k = some v ↔ (k, v) ∈ l := by
  obtain ⟨sp', h1, hi, h3⟩ := run_inv hN h
  rw [hsp] at h1
  cases h1
  have hval : ∀ (i : Nat) (sl : Slot), s.slots[i]? = some sl → ∀ k, sl.key = some k → sl.val ≠ none ∧ sl.refs = 0 := by
    intro i sl hs k hk
    have S := hi.slots i sl hs
    refine ⟨?_, by rw [S.cnt, hh]; rfl⟩
    intro e
    obtain ⟨t, ht⟩ := S.ins k hk
    rcases S.mid k t hk ht e with h | ⟨v, h⟩
    · cases hq _ (List.mem_of_getElem? h)
    · cases hq _ (List.mem_of_getElem? h)
  have key : ∀ (l : List Slot), (∀ sl ∈ l, ∀ k, sl.key = some k → sl.val ≠ none ∧ sl.refs = 0) →
      (∀ (i j k : Nat) (a b : Slot), l[i]? = some a → l[j]? = some b → a.key = some k → b.key = some k → i = j) →
      ∃ m : List (Nat × Nat), dropAll l = .ok (m.map Prod.snd) ∧ (m.map Prod.fst).Nodup ∧ ∀ k v, (∃ sl ∈ l, sl.key = some k ∧ sl.val = some v) ↔ (k, v) ∈ m := by
    intro l
    induction l with
    | nil => intro _ _; exact ⟨[], rfl, List.nodup_nil, by simp⟩
    | cons x l ih =>
      intro hv hu
      obtain ⟨m, h1, h2, h3⟩ := ih (fun sl hm => hv sl (List.mem_cons_of_mem _ hm)) (fun i j k a b ha hb hak hbk => by
        have := hu (i + 1) (j + 1) k a b (by simpa using ha) (by simpa using hb) hak hbk
        omega)
      cases hx : x.key with
      | none =>
        refine ⟨m, ?_, h2, ?_⟩
        · simp only [dropAll, hx]
          exact h1
        · intro k v
          rw [← h3]
          constructor
          · rintro ⟨sl, hm, hk, hsv⟩
            rcases List.mem_cons.1 hm with rfl | hm
            · rw [hx] at hk
              cases hk
            · exact ⟨sl, hm, hk, hsv⟩
          · rintro ⟨sl, hm, hk, hsv⟩
            exact ⟨sl, List.mem_cons_of_mem _ hm, hk, hsv⟩
      | some k0 =>
        obtain ⟨hne, hr⟩ := hv x List.mem_cons_self k0 hx
        obtain ⟨v0, hv0⟩ := Option.ne_none_iff_exists'.1 hne
        refine ⟨(k0, v0) :: m, ?_, ?_, ?_⟩
        · simp [dropAll, hx, hr, hv0, h1]
        · rw [List.map_cons, List.nodup_cons]
          refine ⟨?_, h2⟩
          intro hm
          obtain ⟨⟨k', v'⟩, hm', e⟩ := List.mem_map.1 hm
          have e : k' = k0 := e
          subst e
          obtain ⟨sl, hsl, hk, -⟩ := (h3 k' v').2 hm'
          obtain ⟨j, hj⟩ := List.getElem?_of_mem hsl
          have := hu 0 (j + 1) k' x sl rfl (by simpa using hj) hx hk
          omega
        · intro k v
          rw [List.mem_cons, ← h3]
          constructor
          · rintro ⟨sl, hm, hk, hsv⟩
            rcases List.mem_cons.1 hm with rfl | hm
            · rw [hx] at hk
              rw [hv0] at hsv
              cases hk
              cases hsv
              exact Or.inl rfl
            · exact Or.inr ⟨sl, hm, hk, hsv⟩
          · rintro (e | ⟨sl, hm, hk, hsv⟩)
            · cases e
              exact ⟨x, List.mem_cons_self, hx, hv0⟩
            · exact ⟨sl, List.mem_cons_of_mem _ hm, hk, hsv⟩
  obtain ⟨m, e1, e2, e3⟩ := key s.slots (fun sl hm => by
    obtain ⟨i, hi'⟩ := List.getElem?_of_mem hm
    exact hval i sl hi') hi.uniq
  refine ⟨m, e1, e2, ?_⟩
  intro k v
  rw [hi.m k v, ← e3]
  constructor
  · rintro ⟨i, sl, h1, h2, h3⟩
    exact ⟨sl, List.mem_of_getElem? h1, h2, h3⟩
  · rintro ⟨sl, h1, h2, h3⟩
    obtain ⟨i, hi'⟩ := List.getElem?_of_mem h1
    exact ⟨i, sl, hi', h2, h3⟩

example : dropAll [⟨none, none, 0, none, none, true⟩, ⟨some 4, some 40, 0, some 1, some 1, true⟩] = .ok [40] := by decide

/-- After `forget_all` in the child of a `fork` the table is empty, whatever the other threads of the parent were doing. -/
theorem C59_fork {N n : Nat} (hN : 0 < N) {hash : Nat → Nat} {s s' : St} {tr e : List Ev} (h : Run N hash n s tr) {t : Nat} (hs : step N hash s (.fork t) = some (.ok (s', e))) :
    (∀ sl ∈ s'.slots, sl.key = none) ∧ s'.held = [] ∧ ∃ sp, replay (tr ++ e) = some sp ∧ ∀ k, sp.m k = none ∧ sp.r k = 0 := by
  obtain ⟨sp, h1, hi, h3⟩ := run_inv hN h
  simp only [step] at hs
  split at hs
  · cases hs
    refine ⟨?_, rfl, ⟨fun _ => none, fun _ => 0, sp.p⟩, ?_, fun k => ⟨rfl, rfl⟩⟩
    · intro sl hm
      obtain ⟨a, -, rfl⟩ := List.mem_map.1 hm
      rfl
    · rw [replay_append, h1]
      rfl
  · cases hs

/-- Thread 1 is in the middle of an insertion when thread 0 forks. -/
example : (exec 2 id (St.new 2 2) [.call 1 .getOrInsert 4, .go 1, .go 1, .go 1, .init 1 40, .go 1, .fork 0, .call 0 .get 4, .go 0, .go 0, .go 0]).map Prod.fst =
    some (.ok (⟨[⟨none, none, 0, none, none, true⟩, ⟨none, none, 0, none, none, true⟩], [.idle, .idle], []⟩, [.init 1 4 40, .forget, .absent 0 4])) := by decide

/-- An insertion can panic although the table is never full: here there is never more than one key in a table of two slots.  Thread 1 finds the
first slot taken; the key there is removed and another key goes to the second slot before thread 1 looks at it. -/
theorem C59_full_too_early : ∃ as c, exec 2 id (St.new 2 2) as = some (.panic, c) ∧ ∀ x ∈ c, x ≤ 1 :=
  ⟨[.call 0 .getOrInsert 2, .go 0, .go 0, .go 0, .init 0 20, .go 0, .go 0, .call 1 .getOrInsert 4, .go 1, .go 1, .go 1, .init 1 40, .go 1,
    .unref 0 0, .call 0 .remove 2, .go 0, .go 0, .call 0 .getOrInsert 3, .go 0, .go 0, .go 0, .init 0 30, .go 0, .go 0, .go 1, .go 1], _, by rfl, by decide⟩

end Shadow.TlsMap
