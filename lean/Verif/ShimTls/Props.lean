import Verif.ShimTls.Model
/-!
# C95: every thread has its own thread-local variables in the shim
-/
namespace Shadow.ShimTls

open Shadow.Base

/-! ## Specification: each thread that lives has its own variables -/

structure Live where
  id : Id
  vals : Nat → Option Nat

abbrev Spec := Nat → Option Live

/-- Two threads that cannot be told apart: they have the same thread pointer, or none and the same number. -/
def Clash (a b : Id) : Prop := a.fs = b.fs ∧ (a.fs = 0 → a.tid = b.tid)

/-- A thread may start if it can be told from all that live; only living threads do anything. -/
def Allowed (σ : Spec) : Op → Prop
  | .start n i => σ n = none ∧ ∀ k lk, σ k = some lk → ¬ Clash i lk.id
  | .get n _ => σ n ≠ none
  | .set n _ _ => σ n ≠ none
  | .exit n => σ n ≠ none
  | .fork n _ => σ n ≠ none

def sStep (L : Layout) (σ : Spec) : Op → Spec × Option Nat
  | .start n i => (fun k => if k = n then some ⟨i, fun _ => none⟩ else σ k, none)
  | .get n v =>
    match σ n with
    | none => (σ, none)
    | some lv =>
      match lv.vals v with
      | some x => (σ, some x)
      | none => (fun k => if k = n then some ⟨lv.id, fun w => if w = v then some (L.init v) else lv.vals w⟩ else σ k, some (L.init v))
  | .set n v x =>
    match σ n with
    | none => (σ, none)
    | some lv => (fun k => if k = n then some ⟨lv.id, fun w => if w = v then some x else lv.vals w⟩ else σ k, none)
  | .exit n => (fun k => if k = n then none else σ k, none)
  | .fork n tid =>
    match σ n with
    | none => (σ, none)
    | some lv => (fun k => if k = n then some ⟨⟨lv.id.fs, tid⟩, lv.vals⟩ else none, none)

def AllAllowed (L : Layout) (σ : Spec) : List Op → Prop
  | [] => True
  | op :: l => Allowed σ op ∧ AllAllowed L (sStep L σ op).1 l

def sRun (L : Layout) (σ : Spec) : List Op → List (Option Nat)
  | [] => []
  | op :: l => (sStep L σ op).2 :: sRun L (sStep L σ op).1 l

/-! ## Keys -/

theorem key_tid (t : Nat) (h : t < 2 ^ 31) : 2 ^ 63 ||| t = 2 ^ 63 + t := by
  have := Nat.two_pow_add_eq_or_of_lt (i := 63) (b := t) (by omega) 1
  simpa using this.symm

/-- **C95.** Threads that can be told apart have different keys, whichever kind they are of. -/
theorem C95_key (a b : Id) (k : Nat) (ha : key a = .ok k) (hb : key b = .ok k) : Clash a b := by
  unfold key at ha hb
  by_cases h1 : a.fs ≠ 0 <;> by_cases h2 : b.fs ≠ 0
  · rw [if_pos h1] at ha
    rw [if_pos h2] at hb
    simp [R.bind_eq_ok, R.assert_eq_ok] at ha hb
    exact ⟨by omega, fun h => absurd h h1⟩
  · rw [if_pos h1] at ha
    rw [if_neg h2] at hb
    simp only [R.bind_eq_ok, R.assert_eq_ok, decide_eq_true_eq, R.ok.injEq] at ha hb
    obtain ⟨_, h3, h4⟩ := ha
    obtain ⟨_, h5, h6⟩ := hb
    rw [key_tid _ h5] at h6
    omega
  · rw [if_neg h1] at ha
    rw [if_pos h2] at hb
    simp only [R.bind_eq_ok, R.assert_eq_ok, decide_eq_true_eq, R.ok.injEq] at ha hb
    obtain ⟨_, h3, h4⟩ := ha
    obtain ⟨_, h5, h6⟩ := hb
    rw [key_tid _ h3] at h4
    omega
  · rw [if_neg h1] at ha
    rw [if_neg h2] at hb
    simp only [R.bind_eq_ok, R.assert_eq_ok, decide_eq_true_eq, R.ok.injEq] at ha hb
    obtain ⟨_, h3, h4⟩ := ha
    obtain ⟨_, h5, h6⟩ := hb
    rw [key_tid _ h3] at h4
    rw [key_tid _ h5] at h6
    exact ⟨by omega, fun _ => by omega⟩

theorem loc_mapped {m : Mode} {i : Id} {k : Nat} (h : loc m i = .ok (.mapped k)) : key i = .ok k := by
  unfold loc at h
  split at h
  · simp at h
  · rw [R.bind_eq_ok] at h
    obtain ⟨k', e, h⟩ := h
    simp at h
    rw [e, h]

theorem loc_native {m : Mode} {i : Id} {fs : Nat} (h : loc m i = .ok (.native fs)) : i.fs = fs ∧ fs ≠ 0 := by
  unfold loc at h
  split at h
  · rename_i hc
    simp at h
    exact ⟨h, h ▸ hc.2⟩
  · rw [R.bind_eq_ok] at h
    obtain ⟨k', e, h⟩ := h
    simp at h

theorem loc_clash {m : Mode} {a b : Id} {l : Loc} (ha : loc m a = .ok l) (hb : loc m b = .ok l) : Clash a b := by
  cases l with
  | mapped k => exact C95_key a b k (loc_mapped ha) (loc_mapped hb)
  | native fs =>
    have h1 := loc_native ha
    have h2 := loc_native hb
    exact ⟨by rw [h1.1, h2.1], fun h => absurd (h1.1 ▸ h) h1.2⟩

/-! ## Placing -/

theorem place_ok {next align size o nx : Nat} (ha : 0 < align) (h : place next align size = .ok (o, nx)) : next ≤ o ∧ nx = o + size ∧ o % align = 0 ∧ nx ≤ 1024 := by
  unfold place at h
  simp only [R.bind_eq_ok, R.assert_eq_ok, decide_eq_true_eq, R.ok.injEq, Prod.mk.injEq] at h
  obtain ⟨_, _, _, h2, h3, h4⟩ := h
  refine ⟨by omega, by omega, ?_, by omega⟩
  rw [← h3]
  have hm : next % align < align := Nat.mod_lt _ ha
  by_cases h0 : next % align = 0
  · simp [h0]
  · rw [Nat.mod_eq_of_lt (by omega : align - next % align < align)]
    have e : next + (align - next % align) = align * (next / align) + align := by
      have := Nat.div_add_mod next align
      omega
    rw [e]
    simp

/-- Every variable has at least its flag, and an alignment. -/
def Sizes (L : Layout) : Prop := ∀ v, 0 < L.size v ∧ 0 < L.align v

/-! ## The table and the specification agree -/

structure Inv (L : Layout) (m : Mode) (s : State) (σ : Spec) : Prop where
  ids : ∀ n lv, σ n = some lv → s.ids n = lv.id
  apart : ∀ n k lv lk, σ n = some lv → σ k = some lk → n ≠ k → ¬ Clash lv.id lk.id
  offs : ∀ v o, s.offs v = some o → o + L.size v ≤ s.next
  disj : ∀ v w o o', s.offs v = some o → s.offs w = some o' → v ≠ w → o + L.size v ≤ o' ∨ o' + L.size w ≤ o
  vals : ∀ n lv l, σ n = some lv → loc m lv.id = .ok l → ∀ v, lv.vals v = (s.offs v).bind (s.at l)
  used : ∀ l o x, s.at l o = some x → ∃ v, s.offs v = some o
  dead : ∀ k, (∀ n lv, σ n = some lv → loc m lv.id ≠ .ok (.mapped k)) → s.stores (.mapped k) = none

theorem inv_init (L : Layout) (m : Mode) : Inv L m .init (fun _ => none) := by
  constructor <;> simp [State.init, State.at]

/-- A value was put at a variable of a thread. -/
structure Put (L : Layout) (m : Mode) (s : State) (n v y : Nat) (s' : State) (l : Loc) (o : Nat) : Prop where
  hl : loc m (s.ids n) = .ok l
  ids : s'.ids = s.ids
  off : s'.offs v = some o
  others : ∀ w, w ≠ v → s'.offs w = s.offs w
  fresh : (s.offs v = some o ∧ s'.next = s.next) ∨ (s.offs v = none ∧ place s.next (L.align v) (L.size v) = .ok (o, s'.next))
  here : ∀ o', s'.at l o' = if o' = o then some y else s.at l o'
  there : ∀ l', l' ≠ l → s'.stores l' = s.stores l'

theorem at_congr {s s' : State} {l : Loc} (h : s'.stores l = s.stores l) (o : Nat) : s'.at l o = s.at l o := by
  simp [State.at, h]

theorem at_write (s : State) (l : Loc) (o x o' : Nat) : (s.write l o x).at l o' = if o' = o then some x else s.at l o' := by
  simp [State.write, State.at, upd]

theorem get_put {L : Layout} {m : Mode} {s s' : State} {n v x o : Nat} {l : Loc} (h : get L m s n v = .ok (x, l, o, s')) :
    Put L m s n v x s' l o ∧ x = (s.at l o).getD (L.init v) := by
  unfold get at h
  rw [R.bind_eq_ok] at h
  obtain ⟨l', hl, h⟩ := h
  rw [R.bind_eq_ok] at h
  obtain ⟨p, hp, h⟩ := h
  simp only [R.ok.injEq, Prod.mk.injEq] at h
  obtain ⟨hx, rfl, ho, hs⟩ := h
  have a1 : ∀ o', ({ s with stores := upd s.stores l' (some (s.at l')) } : State).at l' o' = s.at l' o' := by intro o'; simp [State.at, upd]
  -- the state after the offset is known
  have hoff : p.2.ids = s.ids ∧ p.2.offs v = some p.1 ∧ (∀ w, w ≠ v → p.2.offs w = s.offs w) ∧
      ((s.offs v = some p.1 ∧ p.2.next = s.next) ∨ (s.offs v = none ∧ place s.next (L.align v) (L.size v) = .ok (p.1, p.2.next))) ∧
      p.2.stores = upd s.stores l' (some (s.at l')) := by
    unfold offset at hp
    simp only at hp
    cases ho2 : s.offs v with
    | some o2 =>
      rw [ho2] at hp
      simp at hp
      subst hp
      exact ⟨rfl, ho2, fun _ _ => rfl, .inl ⟨rfl, rfl⟩, rfl⟩
    | none =>
      rw [ho2] at hp
      simp only [R.bind_eq_ok] at hp
      obtain ⟨q, hq, hp⟩ := hp
      simp at hp
      subst hp
      exact ⟨rfl, by simp [upd], fun w hw => by simp [upd, hw], .inr ⟨rfl, hq⟩, rfl⟩
  obtain ⟨h1, h2, h3, h4, h5⟩ := hoff
  have hat : ∀ o', p.2.at l' o' = s.at l' o' := by intro o'; simp [State.at, h5, upd]
  subst ho
  unfold ensure at hx hs
  rw [hat] at hx hs
  cases hv : s.at l' p.1 with
  | some y =>
    rw [hv] at hx hs
    simp at hx hs
    subst hx hs
    refine ⟨⟨hl, h1, h2, h3, h4, ?_, ?_⟩, rfl⟩
    · intro o'
      rw [hat]
      split
      · rename_i e; rw [e, hv]
      · rfl
    · intro l2 hne
      simp [h5, upd, hne]
  | none =>
    rw [hv] at hx hs
    simp at hx hs
    subst hx hs
    refine ⟨⟨hl, h1, h2, h3, h4, ?_, ?_⟩, rfl⟩
    · intro o'
      rw [at_write, hat]
    · intro l2 hne
      simp [State.write, h5, upd, hne]

theorem put_write {L : Layout} {m : Mode} {s s' : State} {n v x y o : Nat} {l : Loc} (h : Put L m s n v x s' l o) : Put L m s n v y (s'.write l o y) l o := by
  obtain ⟨h1, h2, h3, h4, h5, h6, h7⟩ := h
  refine ⟨h1, h2, h3, h4, h5, ?_, ?_⟩
  · intro o'
    rw [at_write, h6]
    split <;> rfl
  · intro l2 hne
    simp only [State.write, upd, if_neg hne]
    exact h7 l2 hne

theorem inv_put {L : Layout} {m : Mode} {s s' : State} {σ : Spec} {n v y o : Nat} {l : Loc} {lv : Live} (hz : Sizes L) (hi : Inv L m s σ) (hn : σ n = some lv)
    (h : Put L m s n v y s' l o) : Inv L m s' (fun k => if k = n then some ⟨lv.id, fun w => if w = v then some y else lv.vals w⟩ else σ k) := by
  have hloc : loc m lv.id = .ok l := by rw [← hi.ids n lv hn]; exact h.hl
  -- the new offset does not touch the others
  have hnew : s.offs v = none → s.next ≤ o ∧ s'.next = o + L.size v := by
    intro e
    rcases h.fresh with ⟨e2, _⟩ | ⟨_, e2⟩
    · rw [e] at e2; cases e2
    · have := place_ok (hz v).2 e2
      exact ⟨this.1, this.2.1⟩
  have hnext : s.next ≤ s'.next := by
    rcases h.fresh with ⟨_, e⟩ | ⟨e, _⟩
    · omega
    · have := hnew e; omega
  have hother : ∀ w o', w ≠ v → s.offs w = some o' → o ≠ o' ∧ (o + L.size v ≤ o' ∨ o' + L.size w ≤ o) := by
    intro w o' hw e
    have d : o + L.size v ≤ o' ∨ o' + L.size w ≤ o := by
      rcases h.fresh with ⟨e2, _⟩ | ⟨e2, _⟩
      · exact hi.disj v w o o' e2 e (Ne.symm hw)
      · have := hnew e2; have := hi.offs w o' e; omega
    have := (hz v).1
    have := (hz w).1
    exact ⟨by omega, d⟩
  have bound : o + L.size v ≤ s'.next := by
    rcases h.fresh with ⟨e, e2⟩ | ⟨e, _⟩
    · have := hi.offs v o e; omega
    · have := hnew e; omega
  constructor
  · intro k lk hk
    rw [h.ids]
    split at hk
    · rename_i e; simp at hk; subst e hk; exact hi.ids k lv hn
    · exact hi.ids k lk hk
  · intro k1 k2 l1 l2 h1 h2 hne
    split at h1 <;> split at h2
    · rename_i e1 e2; omega
    · rename_i e1 e2; simp at h1; subst e1 h1; exact hi.apart k1 k2 lv l2 hn h2 hne
    · rename_i e1 e2; simp at h2; subst e2 h2; exact hi.apart k1 k2 l1 lv h1 hn hne
    · exact hi.apart k1 k2 l1 l2 h1 h2 hne
  · intro w o' hw
    by_cases e : w = v
    · subst e
      rw [h.off] at hw
      cases hw
      exact bound
    · rw [h.others w e] at hw
      have := hi.offs w o' hw
      omega
  · intro a b oa ob ha hb hne
    by_cases ea : a = v
    · subst ea
      rw [h.off] at ha
      cases ha
      rw [h.others b (Ne.symm hne)] at hb
      exact (hother b ob (Ne.symm hne) hb).2
    · by_cases eb : b = v
      · subst eb
        rw [h.off] at hb
        cases hb
        rw [h.others a ea] at ha
        exact (hother a oa ea ha).2.symm
      · rw [h.others a ea] at ha
        rw [h.others b eb] at hb
        exact hi.disj a b oa ob ha hb hne
  · intro k lk l2 hk hl2 w
    split at hk
    · rename_i e
      simp at hk
      subst e hk
      simp only at hl2 ⊢
      rw [hloc] at hl2
      cases hl2
      by_cases ew : w = v
      · subst ew
        simp [h.off, h.here]
      · rw [if_neg ew, h.others w ew, hi.vals k lv l hn hloc w]
        cases ho : s.offs w with
        | none => rfl
        | some o' =>
          have := (hother w o' ew ho).1
          simp [h.here, Ne.symm this]
    · rename_i e
      have hne : l2 ≠ l := by
        intro e2
        subst e2
        exact hi.apart k n lk lv hk hn e (loc_clash hl2 hloc)
      rw [hi.vals k lk l2 hk hl2 w]
      by_cases ew : w = v
      · subst ew
        rcases h.fresh with ⟨e2, _⟩ | ⟨e2, _⟩
        · rw [e2, h.off]
          simp [at_congr (h.there l2 hne)]
        · rw [e2, h.off]
          simp only [Option.bind_none, Option.bind_some, at_congr (h.there l2 hne)]
          cases hx : s.at l2 o with
          | none => rfl
          | some x =>
            obtain ⟨u, hu⟩ := hi.used l2 o x hx
            by_cases eu : u = w
            · subst eu; rw [e2] at hu; cases hu
            · exact absurd rfl (hother u o eu hu).1
      · rw [h.others w ew]
        cases s.offs w with
        | none => rfl
        | some o' => simp [at_congr (h.there l2 hne)]
  · intro l2 o' x hx
    by_cases e : l2 = l
    · subst e
      rw [h.here] at hx
      split at hx
      · rename_i e; exact ⟨v, e ▸ h.off⟩
      · obtain ⟨u, hu⟩ := hi.used l2 o' x hx
        by_cases eu : u = v
        · subst eu
          rcases h.fresh with ⟨e2, _⟩ | ⟨e2, _⟩
          · exact ⟨u, by rw [h.off, ← e2, hu]⟩
          · rw [e2] at hu; cases hu
        · exact ⟨u, by rw [h.others u eu, hu]⟩
    · rw [at_congr (h.there l2 e)] at hx
      obtain ⟨u, hu⟩ := hi.used l2 o' x hx
      by_cases eu : u = v
      · subst eu
        rcases h.fresh with ⟨e2, _⟩ | ⟨e2, _⟩
        · exact ⟨u, by rw [h.off, ← e2, hu]⟩
        · rw [e2] at hu; cases hu
      · exact ⟨u, by rw [h.others u eu, hu]⟩
  · intro k hk
    have hne : Loc.mapped k ≠ l := by
      intro e
      exact hk n ⟨lv.id, fun w => if w = v then some y else lv.vals w⟩ (by simp) (by simp only; rw [hloc, e])
    rw [h.there _ hne]
    refine hi.dead k ?_
    intro n2 l2 h2
    by_cases e : n2 = n
    · subst e
      rw [hn] at h2
      cases h2
      intro e2
      rw [hloc] at e2
      cases e2
      exact hne rfl
    · exact hk n2 l2 (by simp [e, h2])

theorem inv_start {L : Layout} {m : Mode} {s : State} {σ : Spec} {n : Nat} {i : Id} (hi : Inv L m s σ) (ha : Allowed σ (.start n i)) :
    Inv L m { s with ids := upd s.ids n i, stores := upd s.stores (.native i.fs) none } (fun k => if k = n then some ⟨i, fun _ => none⟩ else σ k) := by
  obtain ⟨hn, hc⟩ := ha
  have keep : ∀ l o x, ({ s with ids := upd s.ids n i, stores := upd s.stores (.native i.fs) none } : State).at l o = some x → s.at l o = some x := by
    intro l o x h
    by_cases e : l = .native i.fs
    · simp [State.at, upd, e] at h
    · simpa [State.at, upd, e] using h
  constructor
  · intro k lk hk
    split at hk
    · rename_i e; simp at hk; subst e hk; simp [upd]
    · rename_i e; simp only [upd, if_neg e]; exact hi.ids k lk hk
  · intro k1 k2 l1 l2 h1 h2 hne
    split at h1 <;> split at h2
    · omega
    · rename_i e1 e2; simp at h1; subst e1 h1; exact hc k2 l2 h2
    · rename_i e1 e2
      simp at h2
      subst e2 h2
      intro c
      exact hc k1 l1 h1 ⟨c.1.symm, fun h => (c.2 (c.1.trans h)).symm⟩
    · exact hi.apart k1 k2 l1 l2 h1 h2 hne
  · exact hi.offs
  · exact hi.disj
  · intro k lk l hk hl v
    split at hk
    · rename_i e
      simp at hk
      subst hk
      simp only at hl ⊢
      cases ho : s.offs v with
      | none => rfl
      | some o =>
        simp only [Option.bind_some]
        cases l with
        | native fs =>
          have := loc_native hl
          simp [State.at, upd, this.1]
        | mapped key =>
          have : s.stores (.mapped key) = none := hi.dead key (fun n2 l2 h2 e => hc n2 l2 h2 (loc_clash hl e))
          simp [State.at, upd, this]
    · rename_i e
      rw [hi.vals k lk l hk hl v]
      have hne : l ≠ .native i.fs := by
        intro e
        subst e
        have := loc_native hl
        exact hc k lk hk ⟨this.1.symm, fun h => absurd h this.2⟩
      cases s.offs v with
      | none => rfl
      | some o => simp [State.at, upd, hne]
  · intro l o x h
    exact hi.used l o x (keep l o x h)
  · intro k hk
    simp only [upd, reduceCtorEq, if_false]
    refine hi.dead k ?_
    intro n2 l2 h2
    have : n2 ≠ n := by intro e; subst e; rw [hn] at h2; cases h2
    exact hk n2 l2 (by simp [this, h2])

theorem inv_exit {L : Layout} {m : Mode} {s s' : State} {σ : Spec} {n : Nat} {lv : Live} (hi : Inv L m s σ) (hn : σ n = some lv) (h : unregister s n = .ok s') :
    Inv L m s' (fun k => if k = n then none else σ k) := by
  unfold unregister at h
  rw [R.bind_eq_ok] at h
  obtain ⟨key0, hk0, h⟩ := h
  simp at h
  subst h
  rw [hi.ids n lv hn] at hk0
  constructor
  · intro k lk hk
    split at hk
    · cases hk
    · exact hi.ids k lk hk
  · intro k1 k2 l1 l2 h1 h2 hne
    split at h1
    · cases h1
    · split at h2
      · cases h2
      · exact hi.apart k1 k2 l1 l2 h1 h2 hne
  · exact hi.offs
  · exact hi.disj
  · intro k lk l hk hl v
    split at hk
    · cases hk
    · rename_i e
      have hne : l ≠ .mapped key0 := by
        intro e2
        subst e2
        exact hi.apart k n lk lv hk hn e (C95_key _ _ key0 (loc_mapped hl) hk0)
      rw [hi.vals k lk l hk hl v]
      cases s.offs v with
      | none => rfl
      | some o => simp [State.at, upd, hne]
  · intro l o x h
    refine hi.used l o x ?_
    by_cases e : l = .mapped key0
    · simp [State.at, upd, e] at h
    · simpa [State.at, upd, e] using h
  · intro k hk
    by_cases e : k = key0
    · simp [upd, e]
    · simp only [upd, Loc.mapped.injEq, if_neg e]
      refine hi.dead k ?_
      intro n2 l2 h2
      by_cases e2 : n2 = n
      · subst e2
        rw [hn] at h2
        cases h2
        intro e3
        have := loc_mapped e3
        rw [hk0] at this
        cases this
        exact e rfl
      · exact hk n2 l2 (by simp [e2, h2])

theorem inv_fork {L : Layout} {m : Mode} {s s' : State} {σ : Spec} {n tid : Nat} {lv : Live} (hi : Inv L m s σ) (hn : σ n = some lv) (h : forkFrom m s n tid = .ok s') :
    Inv L m s' (fun k => if k = n then some ⟨⟨lv.id.fs, tid⟩, lv.vals⟩ else none) := by
  have hid := hi.ids n lv hn
  -- what is left: the ids, the offsets, and one storage
  have key : ∃ old new, loc m lv.id = .ok old ∧ loc m ⟨lv.id.fs, tid⟩ = .ok new ∧ s'.ids n = ⟨lv.id.fs, tid⟩ ∧ s'.offs = s.offs ∧ s'.next = s.next ∧
      s'.stores new = s.stores old ∧ (∀ k, .mapped k ≠ new → s'.stores (.mapped k) = none) ∧ (∀ fs, .native fs ≠ new → s'.stores (.native fs) = s.stores (.native fs)) := by
    unfold forkFrom at h
    rw [hid, R.bind_eq_ok] at h
    obtain ⟨old, ho, h⟩ := h
    cases old with
    | native fs =>
      simp only [R.bind_eq_ok] at h
      obtain ⟨new, hnew, h⟩ := h
      cases new with
      | mapped k => simp at h
      | native fs2 =>
        simp at h
        subst h
        have e : fs2 = fs := by
          have h1 := loc_native ho
          have h2 := loc_native hnew
          simp at h2
          omega
        subst e
        exact ⟨_, _, ho, hnew, by simp [upd], rfl, rfl, rfl, fun _ _ => rfl, fun _ _ => rfl⟩
    | mapped k0 =>
      simp only [R.bind_eq_ok] at h
      obtain ⟨st, hst, new, hnew, h⟩ := h
      cases new with
      | native fs => simp at h
      | mapped k =>
        simp at h
        subst h
        have hst' : s.stores (.mapped k0) = some st := by cases hh : s.stores (.mapped k0) <;> simp_all
        refine ⟨_, _, ho, hnew, by simp [upd], rfl, rfl, by simp [upd, hst'], ?_, ?_⟩
        · intro k2 hk2; simp only [upd, if_neg hk2]; rfl
        · intro fs hfs; simp only [upd, if_neg hfs]; rfl
  obtain ⟨old, new, ho, hnew, e1, e2, e3, e4, e5, e6⟩ := key
  constructor
  · intro k lk hk
    split at hk
    · rename_i e; simp at hk; subst e hk; exact e1
    · cases hk
  · intro k1 k2 l1 l2 h1 h2 hne
    split at h1
    · split at h2
      · omega
      · cases h2
    · cases h1
  · intro v o hv; rw [e2] at hv; rw [e3]; exact hi.offs v o hv
  · intro a b oa ob ha hb hne; rw [e2] at ha hb; exact hi.disj a b oa ob ha hb hne
  · intro k lk l hk hl v
    split at hk
    · simp at hk
      subst hk
      simp only at hl ⊢
      rw [hnew] at hl
      cases hl
      rw [hi.vals n lv old hn ho v, e2]
      cases s.offs v with
      | none => rfl
      | some o => simp [State.at, e4]
    · cases hk
  · intro l o x hx
    rw [e2]
    by_cases e : l = new
    · subst e
      exact hi.used old o x (by simpa [State.at, e4] using hx)
    · cases l with
      | mapped k => simp [State.at, e5 k e] at hx
      | native fs => exact hi.used (.native fs) o x (by simpa [State.at, e6 fs e] using hx)
  · intro k hk
    refine e5 k ?_
    intro e
    exact hk n ⟨⟨lv.id.fs, tid⟩, lv.vals⟩ (by simp) (by simp only; rw [hnew, ← e])

theorem inv_step {L : Layout} {m : Mode} {s s' : State} {σ : Spec} {op : Op} {out : Option Nat} (hz : Sizes L) (hi : Inv L m s σ) (ha : Allowed σ op)
    (h : step L m s op = .ok (s', out)) : Inv L m s' (sStep L σ op).1 ∧ out = (sStep L σ op).2 := by
  cases op with
  | start n i =>
    simp [step] at h
    obtain ⟨rfl, rfl⟩ := h
    exact ⟨inv_start hi ha, rfl⟩
  | exit n =>
    obtain ⟨lv, hn⟩ := Option.ne_none_iff_exists'.1 ha
    simp only [step, R.bind_eq_ok, R.ok.injEq, Prod.mk.injEq] at h
    obtain ⟨s1, h1, rfl, rfl⟩ := h
    exact ⟨inv_exit hi hn h1, rfl⟩
  | fork n tid =>
    obtain ⟨lv, hn⟩ := Option.ne_none_iff_exists'.1 ha
    simp only [step, R.bind_eq_ok, R.ok.injEq, Prod.mk.injEq] at h
    obtain ⟨s1, h1, rfl, rfl⟩ := h
    have := inv_fork hi hn h1
    simp only [sStep, hn]
    exact ⟨this, trivial⟩
  | get n v =>
    obtain ⟨lv, hn⟩ := Option.ne_none_iff_exists'.1 ha
    simp only [step, R.bind_eq_ok, R.ok.injEq, Prod.mk.injEq] at h
    obtain ⟨⟨x, l, o, s1⟩, h1, rfl, rfl⟩ := h
    obtain ⟨hp, hx⟩ := get_put h1
    have hinv := inv_put hz hi hn hp
    have hloc : loc m lv.id = .ok l := by rw [← hi.ids n lv hn]; exact hp.hl
    have hv := hi.vals n lv l hn hloc v
    have hval : (s.at l o) = lv.vals v := by
      rw [hv]
      rcases hp.fresh with ⟨e, _⟩ | ⟨e, hpl⟩
      · rw [e]; rfl
      · rw [e]
        cases hq : s.at l o with
        | none => rfl
        | some q =>
          obtain ⟨u, hu⟩ := hi.used l o q hq
          have h1 := hi.offs u o hu
          have h2 := (place_ok (hz v).2 hpl).1
          have h3 := (hz u).1
          omega
    rw [hval] at hx
    simp only [sStep, hn]
    cases hlv : lv.vals v with
    | some y =>
      rw [hlv] at hx
      simp at hx
      subst hx
      simp only [and_true]
      have : (fun k => if k = n then some (⟨lv.id, fun w => if w = v then some x else lv.vals w⟩ : Live) else σ k) = σ := by
        funext k
        by_cases e : k = n
        · subst e
          simp only [if_true, hn]
          congr 2
          funext w
          by_cases ew : w = v
          · subst ew; simp [hlv]
          · simp [ew]
        · simp [e]
      rw [this] at hinv
      exact hinv
    | none =>
      rw [hlv] at hx
      simp at hx
      subst hx
      exact ⟨hinv, rfl⟩
  | set n v x =>
    obtain ⟨lv, hn⟩ := Option.ne_none_iff_exists'.1 ha
    simp only [step, R.bind_eq_ok, R.ok.injEq, Prod.mk.injEq] at h
    obtain ⟨⟨x1, l, o, s1⟩, h1, rfl, rfl⟩ := h
    simp only [sStep, hn]
    exact ⟨inv_put hz hi hn (put_write (get_put h1).1), trivial⟩

/-- **C95.** In every mode, and whatever threads start, use variables, end and fork: as long as living threads can be told apart, each thread gets what it last wrote to a variable, or what the variable is
initialised with; nothing of other threads or of threads that ended; and after a fork, what the thread had before. -/
theorem C95_values (L : Layout) (m : Mode) (hz : Sizes L) (ops : List Op) (ha : AllAllowed L (fun _ => none) ops) (outs : List (Option Nat)) (h : run L m .init ops = .ok outs) :
    outs = sRun L (fun _ => none) ops := by
  have gen : ∀ (ops : List Op) (s : State) (σ : Spec) (outs : List (Option Nat)), Inv L m s σ → AllAllowed L σ ops → run L m s ops = .ok outs → outs = sRun L σ ops := by
    intro ops
    induction ops with
    | nil => intro s σ outs _ _ h; simp [run] at h; exact h.symm ▸ rfl
    | cons op l ih =>
      intro s σ outs hi ha h
      simp only [run, R.bind_eq_ok, R.ok.injEq] at h
      obtain ⟨⟨s1, o1⟩, h1, out, h2, rfl⟩ := h
      obtain ⟨hi1, ho⟩ := inv_step hz hi ha.1 h1
      simp only [sRun]
      rw [ih s1 _ out hi1 ha.2 h2]
      simp only [ho]
  exact gen ops .init _ outs (inv_init L m) ha h

/-- **C95.** The shim panics only when the thread pointer or number is out of range, when the variables exceed the space, or when a thread forks that never used a variable. -/
theorem C95_panic (L : Layout) (m : Mode) (s : State) (σ : Spec) (op : Op) (hi : Inv L m s σ) (ha : Allowed σ op) (h : step L m s op = .panic) :
    ∃ n lv, σ n = some lv ∧ (2 ^ 63 ≤ lv.id.fs ∨ 2 ^ 31 ≤ lv.id.tid ∨ (∃ v, s.offs v = none ∧ place s.next (L.align v) (L.size v) = .panic) ∨
      (∃ tid, op = .fork n tid ∧ (2 ^ 31 ≤ tid ∨ ∃ l, loc m lv.id = .ok l ∧ s.stores l = none))) := by
  have keyp : ∀ i, key i = .panic → 2 ^ 63 ≤ i.fs ∨ 2 ^ 31 ≤ i.tid := by
    intro i hk
    unfold key at hk
    split at hk
    · by_cases e : i.fs < 2 ^ 63
      · simp [e] at hk
      · exact .inl (by omega)
    · by_cases e : i.tid < 2 ^ 31
      · simp [e] at hk
      · exact .inr (by omega)
  have locp : ∀ i, loc m i = .panic → 2 ^ 63 ≤ i.fs ∨ 2 ^ 31 ≤ i.tid := by
    intro i hk
    unfold loc at hk
    split at hk
    · simp at hk
    · rw [R.bind_eq_panic] at hk
      rcases hk with hk | ⟨_, _, hk⟩
      · exact keyp i hk
      · simp at hk
  have getp : ∀ n v lv, σ n = some lv → get L m s n v = .panic → 2 ^ 63 ≤ lv.id.fs ∨ 2 ^ 31 ≤ lv.id.tid ∨ ∃ v, s.offs v = none ∧ place s.next (L.align v) (L.size v) = .panic := by
    intro n v lv hn hg
    unfold get at hg
    rw [hi.ids n lv hn, R.bind_eq_panic] at hg
    rcases hg with hg | ⟨l, _, hg⟩
    · rcases locp _ hg with e | e
      · exact .inl e
      · exact .inr (.inl e)
    · simp only [R.bind_eq_panic] at hg
      rcases hg with hg | ⟨_, _, hg⟩
      · right; right
        refine ⟨v, ?_⟩
        unfold offset at hg
        simp only at hg
        cases ho : s.offs v with
        | some o => rw [ho] at hg; simp at hg
        | none =>
          rw [ho] at hg
          simp only [R.bind_eq_panic] at hg
          rcases hg with hg | ⟨_, _, hg⟩
          · exact ⟨rfl, hg⟩
          · simp at hg
      · simp at hg
  cases op with
  | start n i => simp [step] at h
  | get n v =>
    obtain ⟨lv, hn⟩ := Option.ne_none_iff_exists'.1 ha
    simp only [step, R.bind_eq_panic, reduceCtorEq, and_false, exists_false, or_false] at h
    rcases getp n v lv hn h with e | e | e
    · exact ⟨n, lv, hn, .inl e⟩
    · exact ⟨n, lv, hn, .inr (.inl e)⟩
    · exact ⟨n, lv, hn, .inr (.inr (.inl e))⟩
  | set n v x =>
    obtain ⟨lv, hn⟩ := Option.ne_none_iff_exists'.1 ha
    simp only [step, R.bind_eq_panic, reduceCtorEq, and_false, exists_false, or_false] at h
    rcases getp n v lv hn h with e | e | e
    · exact ⟨n, lv, hn, .inl e⟩
    · exact ⟨n, lv, hn, .inr (.inl e)⟩
    · exact ⟨n, lv, hn, .inr (.inr (.inl e))⟩
  | exit n =>
    obtain ⟨lv, hn⟩ := Option.ne_none_iff_exists'.1 ha
    simp only [step, unregister, R.bind_eq_panic, reduceCtorEq, and_false, exists_false, or_false] at h
    rw [hi.ids n lv hn] at h
    rcases keyp _ h with e | e
    · exact ⟨n, lv, hn, .inl e⟩
    · exact ⟨n, lv, hn, .inr (.inl e)⟩
  | fork n tid =>
    obtain ⟨lv, hn⟩ := Option.ne_none_iff_exists'.1 ha
    simp only [step, R.bind_eq_panic, reduceCtorEq, and_false, exists_false, or_false] at h
    refine ⟨n, lv, hn, ?_⟩
    unfold forkFrom at h
    rw [hi.ids n lv hn, R.bind_eq_panic] at h
    rcases h with h | ⟨old, ho, h⟩
    · rcases locp _ h with e | e
      · exact .inl e
      · exact .inr (.inl e)
    · have newp : loc m ⟨lv.id.fs, tid⟩ = .panic → 2 ^ 63 ≤ lv.id.fs ∨ 2 ^ 31 ≤ tid := fun hh => locp _ hh
      cases old with
      | native fs =>
        simp only [R.bind_eq_panic] at h
        rcases h with h | ⟨new, hnew, h⟩
        · rcases newp h with e | e
          · exact .inl e
          · exact .inr (.inr (.inr ⟨tid, rfl, .inl e⟩))
        · cases new with
          | native _ => simp at h
          | mapped k =>
            have h1 := loc_native ho
            unfold loc at ho hnew
            split at ho
            · rename_i hc
              rw [if_pos ⟨hc.1, hc.2⟩] at hnew
              simp at hnew
            · rw [R.bind_eq_ok] at ho
              obtain ⟨_, _, ho⟩ := ho
              simp at ho
      | mapped k0 =>
        simp only [R.bind_eq_panic] at h
        rcases h with h | ⟨st, _, h⟩
        · refine .inr (.inr (.inr ⟨tid, rfl, .inr ⟨_, ho, ?_⟩⟩))
          cases hh : s.stores (.mapped k0) with
          | none => rfl
          | some st => rw [hh] at h; simp at h
        · rcases h with h | ⟨new, hnew, h⟩
          · rcases newp h with e | e
            · exact .inl e
            · exact .inr (.inr (.inr ⟨tid, rfl, .inl e⟩))
          · cases new with
            | mapped _ => simp at h
            | native fs =>
              unfold loc at ho hnew
              split at hnew
              · rename_i hc
                rw [if_pos ⟨hc.1, hc.2⟩] at ho
                simp at ho
              · rw [R.bind_eq_ok] at hnew
                obtain ⟨_, _, hnew⟩ := hnew
                simp at hnew

/-! ## Allocation by several threads -/

/-- Two places do not overlap. -/
def Apart (L : Layout) (a b : Nat × Nat) : Prop := a.2 + L.size a.1 ≤ b.2 ∨ b.2 + L.size b.1 ≤ a.2

/-- **C95.** However threads interleave in placing variables, the places do not overlap, each is aligned, and all are within the storage of a thread. -/
theorem C95_disjoint (L : Layout) (hz : Sizes L) (sched : List (Nat × Option Nat)) (s : Alloc) (h : aRun L ⟨0, fun _ => .idle, []⟩ sched = .ok s) :
    s.got.Pairwise (Apart L) ∧ ∀ p ∈ s.got, p.2 % L.align p.1 = 0 ∧ p.2 + L.size p.1 ≤ 1024 := by
  have gen : ∀ (sched : List (Nat × Option Nat)) (s s' : Alloc), s.got.Pairwise (Apart L) → (∀ p ∈ s.got, p.2 % L.align p.1 = 0 ∧ p.2 + L.size p.1 ≤ s.next) → s.next ≤ 1024 →
      aRun L s sched = .ok s' → s'.got.Pairwise (Apart L) ∧ (∀ p ∈ s'.got, p.2 % L.align p.1 = 0 ∧ p.2 + L.size p.1 ≤ s'.next) ∧ s'.next ≤ 1024 := by
    intro sched
    induction sched with
    | nil => intro s s' h1 h2 h3 h; simp [aRun] at h; subst h; exact ⟨h1, h2, h3⟩
    | cons e l ih =>
      intro s s' h1 h2 h3 h
      obtain ⟨t, o⟩ := e
      cases o with
      | some v => exact ih (aLoad s t v) s' h1 h2 h3 h
      | none =>
        simp only [aRun, R.bind_eq_ok] at h
        obtain ⟨s1, hs1, h⟩ := h
        unfold aCas at hs1
        cases hp : s.pcs t with
        | idle =>
          rw [hp] at hs1
          simp at hs1
          subst hs1
          exact ih s s' h1 h2 h3 h
        | read nx v =>
          rw [hp] at hs1
          simp only [R.bind_eq_ok] at hs1
          obtain ⟨⟨o, nn⟩, hpl, hs1⟩ := hs1
          have q := place_ok (hz v).2 hpl
          split at hs1
          · rename_i e
            simp at hs1
            subst hs1
            refine ih _ s' ?_ ?_ q.2.2.2 h
            · refine List.pairwise_cons.2 ⟨?_, h1⟩
              intro b hb
              have := (h2 b hb).2
              right
              simp only
              omega
            · intro p hpm
              rcases List.mem_cons.1 hpm with rfl | hpm
              · simp only; exact ⟨q.2.2.1, by omega⟩
              · have := h2 p hpm
                simp only
                have := q.2.1
                exact ⟨(h2 p hpm).1, by omega⟩
          · simp at hs1
            subst hs1
            exact ih ⟨s.next, upd s.pcs t (.read s.next v), s.got⟩ s' h1 h2 h3 h
  obtain ⟨a, b, c⟩ := gen sched _ s (by simp) (by simp) (by simp) h
  exact ⟨a, fun p hp => ⟨(b p hp).1, by have := (b p hp).2; omega⟩⟩

/-! ## Cases and findings -/

def exL : Layout := ⟨fun v => v + 2, fun v => if v = 0 then 1 else 8, fun v => 100 + v⟩

/-- The assumption on sizes is met. -/
theorem exL_sizes : Sizes exL := by
  intro v
  refine ⟨by simp [exL], ?_⟩
  simp only [exL]
  split <;> omega

/-- Two threads, one of them without a thread pointer, and a fork. -/
def exOps : List Op :=
  [.start 1 ⟨5000, 7⟩, .start 2 ⟨0, 8⟩, .set 1 0 11, .get 2 0, .set 2 1 22, .get 1 1, .get 1 0, .exit 2, .start 3 ⟨0, 8⟩, .get 3 1, .set 3 1 33, .fork 3 9, .get 3 1, .start 1 ⟨5000, 10⟩, .get 1 0]

theorem ex_values : ∀ m ∈ [Mode.native, .nativeTlsId, .gettid], run exL m .init exOps =
    .ok [none, none, none, some 100, none, some 101, some 11, none, none, some 101, none, none, some 33, none, some 100] := by decide +kernel

example : AllAllowed exL (fun _ => none) exOps := by
  simp only [exOps, AllAllowed, Allowed, sStep, exL]
  simp [Clash]
  grind

/-- Two threads place variables at the same time; the second one finds that the first was faster. -/
theorem ex_race : (match aRun exL ⟨0, fun _ => .idle, []⟩ [(1, some 0), (2, some 1), (1, none), (2, none), (2, none)] with | .ok s => s.got | .panic => []) = [(1, 8), (0, 0)] := by decide +kernel

/-- **C95, finding.** The mode `Gettid` is to identify threads by their numbers, but does what `NativeTlsId` does. -/
theorem C95_gettid (i : Id) : loc .gettid i = loc .nativeTlsId i := by
  simp [loc]

/-- In particular two threads with the same thread pointer, which `Gettid` is for, share their variables. -/
theorem C95_gettid_shared : run exL .gettid .init [.start 1 ⟨5000, 7⟩, .start 2 ⟨5000, 8⟩, .set 1 0 11, .get 2 0] = .ok [none, none, none, some 11] := by decide +kernel

/-- **C95, finding.** A thread that gets its thread pointer after it has used a variable loses its values (modelled by going on as another thread with the same number), and what it leaves behind is found by the next
thread with its number and no thread pointer. -/
theorem C95_late_pointer : ∀ m ∈ [Mode.native, .nativeTlsId, .gettid],
    run exL m .init [.start 1 ⟨0, 7⟩, .set 1 0 11, .start 2 ⟨5000, 7⟩, .get 2 0, .exit 2, .start 3 ⟨0, 7⟩, .get 3 0] = .ok [none, none, none, some 100, none, none, some 11] := by decide +kernel

end Shadow.ShimTls
