import Verif.Files.Moves
/-!
# C56: a file is closed exactly once, exactly when nothing refers to it any more
-/
namespace Shadow.Files
open Shadow.Base

/-- The states a host can reach. -/
inductive Run : World → Prop
  | start (n : Nat) : Run (World.start n)
  | step {w w' : World} {a : Act} {r : Ret} : Run w → w.step a = some (.ok (w', r)) → Run w'

theorem sum_zero {α : Type} (f : α → Nat) {l : List α} (h : ∀ x ∈ l, f x = 0) : (l.map f).sum = 0 := by
  cases hz : (l.map f).sum with
  | zero => rfl
  | succ n =>
    obtain ⟨i, p, hi, hp⟩ := sum_pos f (l := l) (by omega)
    have := h p (List.mem_of_getElem? hi)
    omega

theorem start_users : ∀ n k, users (World.start n) k = if k < n then 1 else 0
  | 0, k => rfl
  | n + 1, k => by
    have := start_users n k
    simp only [users, World.start, List.map_map] at this ⊢
    rw [List.range_succ, List.map_append, List.sum_append, this]
    simp only [List.map_cons, List.map_nil, Function.comp, uses, List.sum_cons, List.sum_nil]
    by_cases h1 : k < n
    · have h2 : ¬ n = k := by omega
      have h3 : k < n + 1 := by omega
      simp [h1, h2, h3]
    · by_cases h2 : n = k
      · subst h2
        simp
      · have h3 : ¬ k < n + 1 := by omega
        simp [h1, h2, h3]

theorem start_inv (n : Nat) : Inv (World.start n) := by
  have hr : ∀ f, refs (World.start n) f = 0 := by
    intro f
    simp only [refs]
    rw [sum_zero (tref f), sum_zero (href f)]
    · intro x hx
      simp only [World.start, List.mem_map, List.mem_range] at hx
      obtain ⟨a, _, rfl⟩ := hx
      simp [href]
    · intro x hx
      rw [List.eq_of_mem_replicate hx]
      simp [tref, filesOf]
  have ht : ∀ {k : Nat} {tb : Table}, (World.start n).tables[k]? = some (some tb) → k < n ∧ tb = ⟨1, []⟩ := by
    intro k tb h
    simp only [World.start, List.getElem?_replicate] at h
    split at h
    · rename_i hk
      exact ⟨hk, by simpa using h.symm⟩
    · cases h
  refine ⟨⟨?_, ?_⟩, ⟨?_, ?_, ?_⟩⟩
  · intro f x h
    simp [World.start] at h
  · intro f h
    simp [hr]
  · intro k tb h
    obtain ⟨h1, rfl⟩ := ht h
    rw [start_users]
    simp [h1]
  · intro t th h
    simp only [World.start, List.getElem?_map, Option.map_eq_some_iff] at h
    obtain ⟨a, ha, he⟩ := h
    cases he
    rw [List.getElem?_eq_some_iff] at ha
    obtain ⟨h1, rfl⟩ := ha
    simp only [List.length_range] at h1
    exact ⟨⟨1, []⟩, by simp [World.start, h1]⟩
  · intro k tb h
    obtain ⟨_, rfl⟩ := ht h
    simp

theorem run_inv {w : World} (h : Run w) : Inv w := by
  induction h with
  | start n => exact start_inv n
  | step _ hs ih =>
    obtain ⟨w', r, e, i⟩ := step_inv ih hs
    cases e
    exact i

/-- **C56, no double free**: no call gives back a reference that is not held, or looks for a table that is gone. -/
theorem C56_no_panic {w : World} (h : Run w) {a : Act} {o : R (World × Ret)} (hs : w.step a = some o) : ∃ w' r, o = .ok (w', r) := by
  obtain ⟨w', r, e, _⟩ := step_inv (run_inv h) hs
  exact ⟨w', r, e⟩

/-! ## References and use -/

theorem inUse_iff {w : World} (i : Inv w) (f : Nat) : InUse w f ↔ 0 < refs w f := by
  constructor
  · rintro (⟨t, fd, d, ⟨th, tb, h1, h2, h3⟩, rfl⟩ | ⟨t, th, h1, h2⟩)
    · exact refs_table h2 h3
    · have := le_sum (href f) h1
      simp only [href, h2, if_true] at this
      simp only [refs]
      omega
  · intro h
    simp only [refs] at h
    by_cases ht : 0 < (w.tables.map (tref f)).sum
    · obtain ⟨k, o, hk, hp⟩ := sum_pos (tref f) ht
      cases o with
      | none => simp [tref] at hp
      | some tb =>
        simp only [tref] at hp
        obtain ⟨e, he, hf⟩ := List.mem_map.1 (List.count_pos_iff.1 hp)
        have hrc := i.str.rc hk
        obtain ⟨t, o, hth, hu⟩ := sum_pos (uses k) (l := w.threads) (by simp only [users] at hrc; omega)
        cases o with
        | none => simp [uses] at hu
        | some th =>
          simp only [uses] at hu
          split at hu
          · rename_i e'
            subst e'
            exact .inl ⟨t, e.1, e.2, ⟨th, tb, hth, hk, he⟩, hf⟩
          · omega
    · obtain ⟨t, o, hth, hp⟩ := sum_pos (href f) (l := w.threads) (by omega)
      cases o with
      | none => simp [href] at hp
      | some th =>
        simp only [href] at hp
        split at hp
        · rename_i e
          exact .inr ⟨t, th, hth, e⟩
        · omega

/-- **C56, open exactly while in use**: in every reachable state, an open file that a live thread has a descriptor for, or
is blocked on, has not been closed; any other has been closed exactly once. -/
theorem C56_open {w : World} (h : Run w) {f : Nat} {x : Open} (hf : w.files[f]? = some x) :
    (InUse w f ∧ x.closes = 0) ∨ (¬ InUse w f ∧ x.closes = 1) := by
  have i := run_inv h
  have hc := i.bal.count hf
  rw [inUse_iff i]
  simp only [List.count_nil, Nat.add_zero] at hc
  by_cases h0 : x.count = 0
  · rw [if_pos h0] at hc
    exact .inr ⟨by omega, hc.2⟩
  · rw [if_neg h0] at hc
    exact .inl ⟨by omega, hc.2⟩

/-- Descriptors and blocked calls refer only to files that have been opened. -/
theorem C56_exists {w : World} (h : Run w) {f : Nat} (hu : InUse w f) : f < w.files.length := by
  have i := run_inv h
  rw [inUse_iff i] at hu
  by_cases hl : f < w.files.length
  · exact hl
  · have := i.bal.out (f := f) (by omega)
    simp only [List.count_nil] at this
    omega

/-- **C56, one number, one descriptor**. -/
theorem C56_function {w : World} (h : Run w) {t fd : Nat} {d e : Desc} (hd : Sees w t fd d) (he : Sees w t fd e) : d = e := by
  have i := run_inv h
  obtain ⟨th, tb, h1, h2, h3⟩ := hd
  obtain ⟨th', tb', h1', h2', h3'⟩ := he
  rw [h1] at h1'
  cases h1'
  rw [h2] at h2'
  cases h2'
  have k := (i.str.keys h2).1
  have := (look_iff k).2 h3
  rw [(look_iff k).2 h3'] at this
  cases this
  rfl

/-! ## What the calls do -/

/-- What everyone sees after a call on the descriptors. -/
structure Effect (w w' : World) (t : Nat) (a : Act) (r : Ret) (m : Fds) (x y : Option Nat) : Prop where
  /-- The call does to the caller's descriptors what its specification says. -/
  does : Does w.files.length (Sees w t) a r m
  /-- The caller's wait. -/
  pending : Pending (Sees w t) a r x y
  before : ∀ f, Waits w t f ↔ x = some f
  after : ∀ f, Waits w' t f ↔ y = some f
  /-- Those that share the table see the same. -/
  sharers : ∀ u, Shares w t u → ∀ fd d, Sees w' u fd d ↔ m fd d
  /-- The others notice nothing. -/
  others : ∀ u, ¬ Shares w t u → ∀ fd d, Sees w' u fd d ↔ Sees w u fd d
  waits : ∀ u, u ≠ t → ∀ f, Waits w' u f ↔ Waits w u f
  alive : ∀ u, Alive w' u ↔ Alive w u
  shares : ∀ u v, Shares w' u v ↔ Shares w u v
  opened : w'.files.length = w.files.length + a.opens

theorem sees_eq {w : World} {t : Nat} {th : Thread} {tb : Table} (c : Ctx w t th tb) : Sees w t = fds tb.descs := by
  funext fd d
  apply propext
  constructor
  · rintro ⟨th', tb', h1, h2, h3⟩
    rw [c.thread] at h1
    cases h1
    rw [c.table] at h2
    cases h2
    exact h3
  · intro h
    exact ⟨th, tb, c.thread, c.table, h⟩

/-- **C56, what the calls do**: every call returns what its specification says, changes the descriptors of the caller, and
of the threads that share its table, as it says, and leaves every other thread alone. -/
theorem C56_calls {w w' : World} (h : Run w) {a : Act} {r : Ret} (hm : a.moves = false) (hs : w.step a = some (.ok (w', r))) :
    ∃ m x y, Effect w w' a.thread a r m x y := by
  have i := run_inv h
  obtain ⟨th, tb, c, ha⟩ := step_ctx i hs
  obtain ⟨w'', r', l, y, m, e, out⟩ := act_out c hm rfl ha
  cases e
  have hth : ∀ u, w'.threads[u]? = if a.thread = u then some (some { th with active := y }) else w.threads[u]? := by
    intro u
    rw [out.threads, get_set c.thread]
  have htb : ∀ k, w'.tables[k]? = if th.table = k then some (some { tb with descs := l }) else w.tables[k]? := by
    intro k
    rw [out.tables, get_set c.table]
  -- a live thread before and after
  have back : ∀ {u q}, w'.threads[u]? = some (some q) → ∃ q', w.threads[u]? = some (some q') ∧ q'.table = q.table ∧ (u ≠ a.thread → q' = q) := by
    intro u q hq
    rw [hth] at hq
    by_cases e : a.thread = u
    · rw [if_pos e] at hq
      cases hq
      exact ⟨th, e ▸ c.thread, rfl, fun h => absurd e.symm h⟩
    · rw [if_neg e] at hq
      exact ⟨q, hq, rfl, fun _ => rfl⟩
  have forth : ∀ {u q}, w.threads[u]? = some (some q) → ∃ q', w'.threads[u]? = some (some q') ∧ q'.table = q.table ∧ (u ≠ a.thread → q' = q) := by
    intro u q hq
    rw [hth]
    by_cases e : a.thread = u
    · rw [if_pos e]
      rw [← e, c.thread] at hq
      cases hq
      exact ⟨_, rfl, rfl, fun h => absurd e.symm h⟩
    · rw [if_neg e]
      exact ⟨q, hq, rfl, fun _ => rfl⟩
  refine ⟨m, th.active, y, ?_⟩
  constructor
  · rw [sees_eq c]
    exact out.does
  · rw [sees_eq c]
    exact out.pending
  · intro f
    constructor
    · rintro ⟨q, h1, h2⟩
      rw [c.thread] at h1
      cases h1
      exact h2
    · intro h1
      exact ⟨th, c.thread, h1⟩
  · intro f
    constructor
    · rintro ⟨q, h1, h2⟩
      rw [hth, if_pos rfl] at h1
      cases h1
      exact h2
    · intro h1
      exact ⟨_, by rw [hth, if_pos rfl], h1⟩
  · rintro u ⟨p, q, h1, h2, h3⟩ fd d
    rw [c.thread] at h1
    cases h1
    obtain ⟨q', h4, h5, _⟩ := forth h2
    rw [← out.mem]
    constructor
    · rintro ⟨q2, tb2, h6, h7, h8⟩
      rw [h4] at h6
      cases h6
      rw [htb, if_pos (by rw [h5, h3])] at h7
      cases h7
      exact h8
    · intro h8
      exact ⟨q', { tb with descs := l }, h4, by rw [htb, if_pos (by rw [h5, h3])], h8⟩
  · intro u hns fd d
    constructor
    · rintro ⟨q, tb2, h6, h7, h8⟩
      obtain ⟨q', h9, h10, _⟩ := back h6
      have : ¬ th.table = q.table := fun he => hns ⟨th, q', c.thread, h9, by rw [h10, he]⟩
      rw [htb, if_neg this] at h7
      exact ⟨q', tb2, h9, by rw [h10]; exact h7, h8⟩
    · rintro ⟨q, tb2, h6, h7, h8⟩
      obtain ⟨q', h9, h10, _⟩ := forth h6
      have : ¬ th.table = q'.table := fun he => hns ⟨th, q, c.thread, h6, by rw [← h10, he]⟩
      exact ⟨q', tb2, h9, by rw [htb, if_neg this, h10]; exact h7, h8⟩
  · intro u hu f
    constructor
    · rintro ⟨q, h1, h2⟩
      obtain ⟨q', h3, _, h4⟩ := back h1
      exact ⟨q', h3, by rw [h4 hu]; exact h2⟩
    · rintro ⟨q, h1, h2⟩
      obtain ⟨q', h3, _, h4⟩ := forth h1
      exact ⟨q', h3, by rw [h4 hu]; exact h2⟩
  · intro u
    constructor
    · rintro ⟨q, h1⟩
      obtain ⟨q', h3, _⟩ := back h1
      exact ⟨q', h3⟩
    · rintro ⟨q, h1⟩
      obtain ⟨q', h3, _⟩ := forth h1
      exact ⟨q', h3⟩
  · intro u v
    constructor
    · rintro ⟨p, q, h1, h2, h3⟩
      obtain ⟨p', h4, h5, _⟩ := back h1
      obtain ⟨q', h6, h7, _⟩ := back h2
      exact ⟨p', q', h4, h6, by rw [h5, h7, h3]⟩
    · rintro ⟨p, q, h1, h2, h3⟩
      obtain ⟨p', h4, h5, _⟩ := forth h1
      obtain ⟨q', h6, h7, _⟩ := forth h2
      exact ⟨p', q', h4, h6, by rw [h5, h7, h3]⟩
  · exact out.files

/-- The other threads notice nothing of what thread `t` did. -/
structure Others (w w' : World) (t : Nat) : Prop where
  sees : ∀ u, u ≠ t → Alive w u → ∀ fd d, Sees w' u fd d ↔ Sees w u fd d
  waits : ∀ u, u ≠ t → Alive w u → ∀ f, Waits w' u f ↔ Waits w u f
  alive : ∀ u, u ≠ t → Alive w u → Alive w' u
  shares : ∀ u v, u ≠ t → v ≠ t → Alive w u → Alive w v → (Shares w' u v ↔ Shares w u v)
  opened : w'.files.length = w.files.length

theorem others_of {w w' : World} {t : Nat} (hth : ∀ u, u ≠ t → Alive w u → w'.threads[u]? = w.threads[u]?)
    (htb : ∀ (u : Nat) (q : Thread), u ≠ t → w.threads[u]? = some (some q) → ∀ tb : Table, w.tables[q.table]? = some (some tb) → ∃ tb' : Table, w'.tables[q.table]? = some (some tb') ∧ tb'.descs = tb.descs)
    (hlive : ∀ (u : Nat) (q : Thread), w.threads[u]? = some (some q) → ∃ tb : Table, w.tables[q.table]? = some (some tb)) (hf : w'.files.length = w.files.length) : Others w w' t := by
  constructor
  · intro u hu ha fd d
    have he := hth u hu ha
    constructor
    · rintro ⟨q, tb, h1, h2, h3⟩
      rw [he] at h1
      obtain ⟨tb0, h0⟩ := hlive u q h1
      obtain ⟨tb', h4, h5⟩ := htb u q hu h1 tb0 h0
      rw [h4] at h2
      cases h2
      exact ⟨q, tb0, h1, h0, h5 ▸ h3⟩
    · rintro ⟨q, tb, h1, h2, h3⟩
      obtain ⟨tb', h4, h5⟩ := htb u q hu h1 tb h2
      exact ⟨q, tb', by rw [he]; exact h1, h4, h5 ▸ h3⟩
  · intro u hu ha f
    simp only [Waits, hth u hu ha]
  · intro u hu ha
    obtain ⟨q, hq⟩ := ha
    exact ⟨q, by rw [hth u hu ⟨q, hq⟩]; exact hq⟩
  · intro u v hu hv ha hb
    simp only [Shares, hth u hu ha, hth v hv hb]
  · exact hf

/-- **C56, the child**: a new thread shares the table of its parent, or has a copy of its own; it sees the same
descriptors, with the same flags; nothing changes for the others. -/
theorem C56_clone {w w' : World} (h : Run w) {t : Nat} {share : Bool} {r : Ret} (hs : w.step (.clone t share) = some (.ok (w', r))) :
    ¬ Alive w w.threads.length ∧ Alive w' w.threads.length ∧ (∀ u, Alive w' u ↔ Alive w u ∨ u = w.threads.length) ∧
    (∀ fd d, Sees w' w.threads.length fd d ↔ Sees w t fd d) ∧ (∀ f, ¬ Waits w' w.threads.length f) ∧
    (∀ u, Alive w u → (Shares w' u w.threads.length ↔ share = true ∧ Shares w u t)) ∧ Others w w' w.threads.length := by
  have i := run_inv h
  obtain ⟨th, tb, c, ha⟩ := step_ctx i hs
  simp only [Act.thread] at c ha
  have hlt : ∀ {u q}, w.threads[u]? = some (some q) → u < w.threads.length := by
    intro u q hq
    rw [List.getElem?_eq_some_iff] at hq
    exact hq.1
  have hdead : ¬ Alive w w.threads.length := by
    rintro ⟨q, hq⟩
    have := hlt hq
    omega
  have gen : ∀ k, w'.threads = w.threads ++ [some ⟨k, none⟩] → (∃ tb' : Table, w'.tables[k]? = some (some tb') ∧ tb'.descs = tb.descs) →
      (∀ (u : Nat) (q : Thread), w.threads[u]? = some (some q) → (q.table = k ↔ share = true ∧ q.table = th.table)) →
      (∀ (j : Nat) (tb : Table), w.tables[j]? = some (some tb) → ∃ tb' : Table, w'.tables[j]? = some (some tb') ∧ tb'.descs = tb.descs) →
      w'.files.length = w.files.length →
      ¬ Alive w w.threads.length ∧ Alive w' w.threads.length ∧ (∀ u, Alive w' u ↔ Alive w u ∨ u = w.threads.length) ∧
      (∀ fd d, Sees w' w.threads.length fd d ↔ Sees w t fd d) ∧ (∀ f, ¬ Waits w' w.threads.length f) ∧
      (∀ u, Alive w u → (Shares w' u w.threads.length ↔ share = true ∧ Shares w u t)) ∧ Others w w' w.threads.length := by
    intro k hh hk hsh htb hf
    have hget : ∀ u, w'.threads[u]? = if u = w.threads.length then some (some ⟨k, none⟩) else w.threads[u]? := by
      intro u
      rw [hh, get_snoc]
    obtain ⟨tbk, hk1, hk2⟩ := hk
    have hnew : w'.threads[w.threads.length]? = some (some ⟨k, none⟩) := by rw [hget, if_pos rfl]
    refine ⟨hdead, ⟨_, hnew⟩, ?_, ?_, ?_, ?_, ?_⟩
    · intro u
      simp only [Alive, hget]
      by_cases e : u = w.threads.length
      · simp [e]
      · simp [e]
    · intro fd d
      rw [sees_eq c]
      constructor
      · rintro ⟨q, tb', h1, h2, h3⟩
        rw [hnew] at h1
        cases h1
        rw [hk1] at h2
        cases h2
        rw [hk2] at h3
        exact h3
      · intro h3
        exact ⟨_, tbk, hnew, hk1, by rw [hk2]; exact h3⟩
    · rintro f ⟨q, h1, h2⟩
      rw [hnew] at h1
      cases h1
      cases h2
    · rintro u ⟨q, hq⟩
      have hu := hlt hq
      have hu' : w'.threads[u]? = some (some q) := by
        rw [hget, if_neg (by omega)]
        exact hq
      constructor
      · rintro ⟨p, p', h1, h2, h3⟩
        rw [hu'] at h1
        cases h1
        rw [hnew] at h2
        cases h2
        obtain ⟨h4, h5⟩ := (hsh u q hq).1 h3
        exact ⟨h4, q, th, hq, c.thread, h5⟩
      · rintro ⟨h1, p, p', h2, h3, h4⟩
        rw [hq] at h2
        cases h2
        rw [c.thread] at h3
        cases h3
        exact ⟨q, _, hu', hnew, (hsh u q hq).2 ⟨h1, h4⟩⟩
    · apply others_of
      · intro u hu _
        rw [hget, if_neg hu]
      · intro u q hu hq tb hj
        exact htb _ tb hj
      · intro u q hq
        exact i.str.live hq
      · exact hf
  cases ha
  cases share with
  | true =>
    obtain ⟨_, h2, h3, h4⟩ := clone_share c
    refine gen th.table h3 ⟨{ tb with rc := tb.rc + 1 }, by rw [h2]; exact getElem?_set_self' c.table, rfl⟩ (fun u q _ => by simp) ?_ h4
    intro j tb' hj
    rw [h2, get_set c.table]
    by_cases e : th.table = j
    · subst e
      rw [c.table] at hj
      cases hj
      exact ⟨{ tb with rc := tb.rc + 1 }, by simp, rfl⟩
    · exact ⟨tb', by simp [e, hj], rfl⟩
  | false =>
    obtain ⟨_, h2, h3, h4⟩ := clone_copy c
    refine gen w.tables.length h3 ⟨⟨1, tb.descs⟩, by rw [h2, get_snoc, if_pos rfl], rfl⟩ (fun u q hq => ?_) ?_ h4
    · obtain ⟨tbq, hq⟩ := i.str.live hq
      have := table_lt hq
      simp
      omega
    · intro j tb' hj
      have := table_lt hj
      rw [h2, get_snoc, if_neg (by omega)]
      exact ⟨tb', hj, rfl⟩

/-- **C56, exec**: the program that calls `exec` keeps exactly the descriptors without the close-on-exec flag, in a table
of its own, and nothing changes for the others. -/
theorem C56_exec {w w' : World} (h : Run w) {t : Nat} {r : Ret} (hs : w.step (.exec t) = some (.ok (w', r))) :
    (∀ fd d, Sees w' t fd d ↔ Sees w t fd d ∧ d.cloexec = false) ∧ (∀ f, ¬ Waits w' t f) ∧ (∀ u, Shares w' t u → u = t) ∧ Alive w' t ∧
    Others w w' t := by
  have i := run_inv h
  obtain ⟨th, tb, c, ha⟩ := step_ctx i hs
  simp only [Act.thread] at c ha
  obtain ⟨w₁, e, _, h2, h3, h4⟩ := exec_out c
  simp only [World.act, e, R.bind] at ha
  cases ha
  have hlt := table_lt c.table
  have hth : ∀ u, w'.threads[u]? = if t = u then some (some ⟨w.tables.length, none⟩) else w.threads[u]? := by
    intro u
    rw [h3, get_set c.thread]
  have htb : ∀ k, w'.tables[k]? = if k = w.tables.length then some (some ⟨1, tb.descs.filter (!·.2.cloexec)⟩)
      else if th.table = k then some (left tb) else w.tables[k]? := by
    intro k
    rw [h2, get_snoc, get_set c.table]
    simp
  have hself : w'.threads[t]? = some (some ⟨w.tables.length, none⟩) := by rw [hth, if_pos rfl]
  refine ⟨?_, ?_, ?_, ⟨_, hself⟩, ?_⟩
  · intro fd d
    rw [sees_eq c]
    constructor
    · rintro ⟨q, tb', g1, g2, g3⟩
      rw [hself] at g1
      cases g1
      rw [htb, if_pos rfl] at g2
      cases g2
      simpa [fds] using g3
    · rintro ⟨g1, g2⟩
      exact ⟨_, _, hself, by rw [htb, if_pos rfl], by simp [g2]; exact g1⟩
  · rintro f ⟨q, g1, g2⟩
    rw [hself] at g1
    cases g1
    cases g2
  · rintro u ⟨p, q, g1, g2, g3⟩
    rw [hself] at g1
    cases g1
    rw [hth] at g2
    by_cases e : t = u
    · exact e.symm
    · rw [if_neg e] at g2
      obtain ⟨tbq, hq⟩ := i.str.live g2
      have := table_lt hq
      simp only at g3
      omega
  · apply others_of
    · intro u hu _
      rw [hth, if_neg (fun e => hu e.symm)]
    · intro u q hu hq tb' hj
      have hl := table_lt hj
      rw [htb, if_neg (by omega)]
      by_cases e : th.table = q.table
      · rw [if_pos e]
        rw [← e, c.table] at hj
        cases hj
        have := left_live c hq (fun e => hu e.symm) e.symm
        exact ⟨{ tb with rc := tb.rc - 1 }, by simp [left, this], rfl⟩
      · rw [if_neg e]
        exact ⟨tb', hj, rfl⟩
    · intro u q hq
      exact i.str.live hq
    · exact h4

/-- **C56, exit**: the end of a thread takes its descriptors with it only if nobody shares its table, and changes nothing
for the others. -/
theorem C56_exit {w w' : World} (h : Run w) {t : Nat} {r : Ret} (hs : w.step (.exit t) = some (.ok (w', r))) :
    ¬ Alive w' t ∧ Others w w' t := by
  have i := run_inv h
  obtain ⟨th, tb, c, ha⟩ := step_ctx i hs
  simp only [Act.thread] at c ha
  obtain ⟨w₁, e, _, h2, h3, h4⟩ := exit_out c
  simp only [World.act, e, R.bind] at ha
  cases ha
  have hth : ∀ u, w'.threads[u]? = if t = u then some none else w.threads[u]? := by
    intro u
    rw [h3, get_set c.thread]
  refine ⟨?_, ?_⟩
  · rintro ⟨q, hq⟩
    rw [hth, if_pos rfl] at hq
    cases hq
  · apply others_of
    · intro u hu _
      rw [hth, if_neg (fun e => hu e.symm)]
    · intro u q hu hq tb' hj
      rw [h2, get_set c.table]
      by_cases e : th.table = q.table
      · rw [if_pos e]
        rw [← e, c.table] at hj
        cases hj
        have := left_live c hq (fun e => hu e.symm) e.symm
        exact ⟨{ tb with rc := tb.rc - 1 }, by simp [left, this], rfl⟩
      · rw [if_neg e]
        exact ⟨tb', hj, rfl⟩
    · intro u q hq
      exact i.str.live hq
    · exact h4

/-! ## When a file is closed -/

/-- The number of files never goes down, and a file keeps its place. -/
theorem files_grow {w w' : World} (h : Run w) {a : Act} {r : Ret} (hs : w.step a = some (.ok (w', r))) : w.files.length ≤ w'.files.length := by
  cases hm : a.moves with
  | false =>
    obtain ⟨m, x, y, e⟩ := C56_calls h hm hs
    have := e.opened
    omega
  | true =>
    cases a with
    | clone t s => exact Nat.le_of_eq (C56_clone h hs).2.2.2.2.2.2.opened.symm
    | exec t => exact Nat.le_of_eq (C56_exec h hs).2.2.2.2.opened.symm
    | exit t => exact Nat.le_of_eq (C56_exit h hs).2.opened.symm
    | _ => cases hm

/-- What a thread can use after a step it could use before, or the step opened the file, or another thread could use it. -/
theorem C56_gone {w w' : World} (h : Run w) {a : Act} {r : Ret} (hs : w.step a = some (.ok (w', r))) {f : Nat} (hf : f < w.files.length)
    (hu : InUse w' f) : InUse w f := by
  cases hm : a.moves with
  | false =>
    obtain ⟨m, x, y, e⟩ := C56_calls h hm hs
    have key : ∀ fd d, m fd d → d.file = f → InUse w f := by
      intro fd d hd hdf
      have old : ∀ g e, Sees w a.thread g e → e.file = f → InUse w f := fun g e h1 h2 => .inl ⟨_, g, e, h1, h2⟩
      have putc : ∀ {n : Nat} {e : Desc} {M : Fds}, M.put n e fd d → (M fd d → InUse w f) → (e.file = f → InUse w f) → InUse w f := by
        intro n e M hp h1 h2
        simp only [Fds.put] at hp
        split at hp
        · exact h2 (by rw [← hp]; exact hdf)
        · exact h1 hp
      have flagc : ∀ {p : Nat → Prop} {c : Bool}, (Fds.flagged (Sees w a.thread) p c) fd d → InUse w f := by
        rintro p c (⟨_, h1⟩ | ⟨_, x, h1, rfl⟩)
        · exact old _ _ h1 hdf
        · exact old _ _ h1 hdf
      have base : Sees w a.thread fd d → InUse w f := fun h1 => old _ _ h1 hdf
      generalize ha : a = a' at *
      cases e.does with
      | create => exact putc hd base (by simp; omega)
      | pair => exact putc hd (fun h1 => putc h1 base (by simp; omega)) (by simp; omega)
      | dup h1 => exact putc hd base fun h2 => old _ _ h1 h2
      | dup2 h1 => exact putc hd base fun h2 => old _ _ h1 h2
      | dup3 h1 => exact putc hd base fun h2 => old _ _ h1 h2
      | dupfd h1 => exact putc hd base fun h2 => old _ _ h1 h2
      | setfd => exact flagc hd
      | rangeFlag => exact flagc hd
      | close => exact base hd.1
      | range => exact base hd.1
      | _ => exact base hd
    rcases hu with ⟨u, fd, d, h1, h2⟩ | ⟨u, h1⟩
    · by_cases hsh : Shares w a.thread u
      · exact key fd d ((e.sharers u hsh fd d).1 h1) h2
      · exact .inl ⟨u, fd, d, (e.others u hsh fd d).1 h1, h2⟩
    · by_cases hut : u = a.thread
      · subst hut
        have hy := (e.after f).1 h1
        generalize ha : a = a' at *
        have hp := e.pending
        have hb := e.before f
        generalize hyy : y = y' at *
        generalize hxx : x = x' at *
        cases hp with
        | block h3 h4 =>
          cases hy
          exact .inl ⟨_, _, _, h3, rfl⟩
        | unblock => cases hy
        | other => exact .inr ⟨_, hb.2 hy⟩
      · exact .inr ⟨u, (e.waits u hut f).1 h1⟩
  | true =>
    have gen : ∀ t, Others w w' t → (∀ u, u ≠ t → Alive w' u → Alive w u) →
        (∀ fd d, Sees w' t fd d → ∃ u, Sees w u fd d) → (∀ g, ¬ Waits w' t g) → InUse w f := by
      intro t o ha hs hw
      rcases hu with ⟨u, fd, d, h1, h2⟩ | ⟨u, h1⟩
      · by_cases e : u = t
        · subst e
          obtain ⟨v, hv⟩ := hs fd d h1
          exact .inl ⟨v, fd, d, hv, h2⟩
        · have : Alive w' u := by
            obtain ⟨q, _, h3, _⟩ := h1
            exact ⟨q, h3⟩
          exact .inl ⟨u, fd, d, (o.sees u e (ha u e this) fd d).1 h1, h2⟩
      · by_cases e : u = t
        · subst e
          exact absurd h1 (hw f)
        · have : Alive w' u := by
            obtain ⟨q, h3, _⟩ := h1
            exact ⟨q, h3⟩
          exact .inr ⟨u, (o.waits u e (ha u e this) f).1 h1⟩
    have dead : ∀ t, (∀ u, u ≠ t → w'.threads[u]? = w.threads[u]?) → ∀ u, u ≠ t → Alive w' u → Alive w u := by
      rintro t ht u hu ⟨q, hq⟩
      exact ⟨q, by rw [← ht u hu]; exact hq⟩
    cases a with
    | clone t s =>
      obtain ⟨_, _, h3, h4, h5, _, h7⟩ := C56_clone h hs
      refine gen _ h7 (fun u hu ha => ?_) (fun fd d h1 => ⟨t, (h4 fd d).1 h1⟩) h5
      rcases (h3 u).1 ha with h8 | h8
      · exact h8
      · exact absurd h8 hu
    | exec t =>
      obtain ⟨h1, h2, _, _, h5⟩ := C56_exec h hs
      obtain ⟨th, tb, c, ha⟩ := step_ctx (run_inv h) hs
      simp only [Act.thread] at c ha
      obtain ⟨w₁, e, _, _, g3, _⟩ := exec_out c
      simp only [World.act, e, R.bind] at ha
      cases ha
      refine gen t h5 (dead t fun u hu => ?_) (fun fd d g => ⟨t, ((h1 fd d).1 g).1⟩) h2
      rw [g3, List.getElem?_set_ne (fun e => hu e.symm)]
    | exit t =>
      obtain ⟨h1, h2⟩ := C56_exit h hs
      obtain ⟨th, tb, c, ha⟩ := step_ctx (run_inv h) hs
      simp only [Act.thread] at c ha
      obtain ⟨w₁, e, _, _, g3, _⟩ := exit_out c
      simp only [World.act, e, R.bind] at ha
      cases ha
      refine gen t h2 (dead t fun u hu => ?_) (fun fd d g => ?_) (fun f g => ?_)
      · rw [g3, List.getElem?_set_ne (fun e => hu e.symm)]
      · obtain ⟨q, _, g1, _⟩ := g
        exact absurd ⟨q, g1⟩ h1
      · obtain ⟨q, g1, _⟩ := g
        exact absurd ⟨q, g1⟩ h1
    | _ => cases hm

/-- **C56, closed at the last reference**: a step closes a file that was open exactly when it takes away the last use of
it, and closes it once. -/
theorem C56_last {w w' : World} (h : Run w) {a : Act} {r : Ret} (hs : w.step a = some (.ok (w', r))) {f : Nat} {x : Open}
    (hf : w.files[f]? = some x) : ∃ x', w'.files[f]? = some x' ∧
      ((x'.closes = x.closes ∧ (InUse w f ↔ InUse w' f)) ∨ (x'.closes = x.closes + 1 ∧ InUse w f ∧ ¬ InUse w' f)) := by
  have hl : f < w.files.length := by
    rw [List.getElem?_eq_some_iff] at hf
    exact hf.1
  have hl' := files_grow h hs
  have hx' : w'.files[f]? = some w'.files[f] := by simp
  refine ⟨_, hx', ?_⟩
  have g := C56_gone h hs hl
  rcases C56_open h hf with ⟨h1, h2⟩ | ⟨h1, h2⟩ <;> rcases C56_open (.step h hs) hx' with ⟨h3, h4⟩ | ⟨h3, h4⟩
  · exact .inl ⟨by omega, by simp [h1, h3]⟩
  · exact .inr ⟨by omega, h1, h3⟩
  · exact absurd (g h3) h1
  · exact .inl ⟨by omega, by simp [h1, h3]⟩

/-- **C56, the calls are possible**: a live thread can make every call that needs no new number. -/
theorem C56_enabled {w : World} (h : Run w) {t : Nat} (ha : Alive w t) (i j : Int) (fl : Option Bool) (a b : Nat) (s : Bool) :
    (∀ x ∈ [Act.dup2 t i j, .dup3 t i j fl, .getfd t i, .setfd t i fl, .close t i, .closeRange t a b fl, .clone t s, .exec t, .exit t],
      (w.step x).isSome) ∧
    (∀ c, ∃ to, (w.step (.create t c to)).isSome) ∧ (∃ to, (w.step (.dup t i to)).isSome) ∧
    (∀ c, ∃ to, (w.step (.dupfd t i a c to)).isSome) ∧
    ((∀ f, ¬ Waits w t f) → (w.step (.block t i)).isSome) ∧ ((∃ f, Waits w t f) → (w.step (.unblock t)).isSome) := by
  obtain ⟨th, hth⟩ := ha
  obtain ⟨tb, htb⟩ := (run_inv h).str.live hth
  have ht : w.tableOf th = .ok tb := by simp [World.tableOf, htb]
  have red : ∀ x : Act, x.thread = t → w.step x = w.act t th tb x := by
    intro x hx
    subst hx
    simp [World.step, hth, ht]
  have fit : ∀ mn, ∃ to, fits tb.descs mn to = true := by
    intro mn
    by_cases hn : fits tb.descs mn none = true
    · exact ⟨none, hn⟩
    · simp only [fits, List.all_eq_true, List.mem_range'_1] at hn
      have : ∃ n, ¬ ((mn ≤ n ∧ n < mn + (fdMax + 1 - mn)) → (look tb.descs n).isSome = true) := Classical.not_forall.1 hn
      obtain ⟨n, hn⟩ := this
      have h1 := Classical.not_imp.1 hn
      refine ⟨some n, ?_⟩
      simp only [fits, Bool.and_eq_true, decide_eq_true_eq]
      refine ⟨⟨h1.1.1, by omega⟩, ?_⟩
      cases hl : look tb.descs n with
      | none => rfl
      | some d =>
        rw [hl] at h1
        simp at h1
  refine ⟨?_, ?_, ?_, ?_, ?_, ?_⟩
  · intro x hx
    simp only [List.mem_cons, List.not_mem_nil, or_false] at hx
    rcases hx with rfl | rfl | rfl | rfl | rfl | rfl | rfl | rfl | rfl <;> rw [red _ rfl] <;> simp only [World.act]
    · rfl
    · rfl
    · split <;> rfl
    · split
      · rfl
      · split <;> rfl
    all_goals rfl
  · intro c
    obtain ⟨to, hto⟩ := fit 0
    exact ⟨to, by rw [red _ rfl]; simp [World.act, hto]⟩
  · obtain ⟨to, hto⟩ := fit 0
    refine ⟨to, ?_⟩
    rw [red _ rfl]
    simp only [World.act]
    split
    · rfl
    · simp [hto]
  · intro c
    obtain ⟨to, hto⟩ := fit a
    refine ⟨to, ?_⟩
    rw [red _ rfl]
    simp only [World.act]
    split
    · rfl
    · split
      · rfl
      · simp_all
  · intro hw
    rw [red _ rfl]
    simp only [World.act]
    cases hx : th.active with
    | some f => exact absurd ⟨th, hth, hx⟩ (hw f)
    | none =>
      simp only
      split <;> rfl
  · rintro ⟨f, q, h1, h2⟩
    rw [hth] at h1
    cases h1
    rw [red _ rfl]
    simp only [World.act, h2]
    rfl

/-! ## A case -/

/-- Run several acts. -/
def World.runs (w : World) : List Act → Option World
  | [] => some w
  | a :: as => match w.step a with
    | some (.ok (w', _)) => w'.runs as
    | _ => none

theorem runs_run : ∀ {as : List Act} {w w' : World}, Run w → w.runs as = some w' → Run w'
  | [], _, _, h, e => by
    cases e
    exact h
  | a :: as, w, w', h, e => by
    simp only [World.runs] at e
    split at e
    · rename_i w₁ r hs
      exact runs_run (.step h hs) e
    · cases e

/-- Open a file, duplicate it, fork, block on it in the child, close it everywhere: it stays open until the call is over. -/
def story : List Act := [.create 0 true (some 0), .dup 0 0 (some 1), .clone 0 false, .block 1 1, .close 1 0, .exec 1, .clone 1 true,
  .block 2 1, .closeRange 2 0 5 (some false), .exit 1, .close 0 0, .exit 0]

example : ∃ w, (World.start 1).runs story = some w ∧ Run w ∧ w.files = [⟨1, 0⟩] :=
  have e : (World.start 1).runs story = some ⟨[⟨1, 0⟩], [none, none, some ⟨1, []⟩], [none, none, some ⟨2, some 0⟩]⟩ := by decide +kernel
  ⟨_, e, runs_run (.start 1) e, rfl⟩

example : ∃ w, (World.start 1).runs (story ++ [.unblock 2]) = some w ∧ Run w ∧ w.files = [⟨0, 1⟩] :=
  have e : (World.start 1).runs (story ++ [.unblock 2]) = some ⟨[⟨0, 1⟩], [none, none, some ⟨1, []⟩], [none, none, some ⟨2, none⟩]⟩ := by decide +kernel
  ⟨_, e, runs_run (.start 1) e, rfl⟩

end Shadow.Files
