import Verif.Files.Calls
/-!
# The calls that change which threads there are, and the invariant along every run
-/
namespace Shadow.Files
open Shadow.Base

variable {w w' : World} {t : Nat} {th : Thread} {tb : Table}

theorem users_pos {w : World} {t : Nat} {th : Thread} (h : w.threads[t]? = some (some th)) : 0 < users w th.table := by
  have := le_sum (uses th.table) h
  simp only [uses, if_true] at this
  exact this

theorem users_set {w : World} {t : Nat} {th : Thread} (h : w.threads[t]? = some (some th)) (o : Option Thread) (k : Nat) :
    ((w.threads.set t o).map (uses k)).sum + uses k (some th) = users w k + uses k o :=
  sum_set (uses k) _ _ _ o h

/-- A call on the descriptors keeps the structure. -/
theorem Out.str (c : Ctx w t th tb) {a : Act} {r : Ret} {l : List (Nat × Desc)} {x : Option Nat} {m : Fds} (o : Out w t th tb a w' r l x m) : Str w' := by
  have hu : ∀ k, users w' k = users w k := by
    intro k
    have := users_set c.thread (some { th with active := x }) k
    simp only [users, o.threads]
    simp only [uses] at this
    simp only [users] at this
    omega
  constructor
  · intro k tb' h
    rw [o.tables, get_set c.table] at h
    rw [hu]
    by_cases e : th.table = k
    · subst e
      simp at h
      subst h
      have := c.str.rc c.table
      exact this
    · simp [e] at h
      exact c.str.rc h
  · intro u th' h
    have hl : ∃ q, w.tables[th'.table]? = some (some q) := by
      rw [o.threads, get_set c.thread] at h
      by_cases e : t = u
      · simp [e] at h
        subst h
        exact ⟨_, c.table⟩
      · simp [e] at h
        exact c.str.live h
    obtain ⟨q, hq⟩ := hl
    rw [o.tables, get_set c.table]
    by_cases e : th.table = th'.table
    · exact ⟨_, by simp [e]; rfl⟩
    · exact ⟨q, by simp [e, hq]⟩
  · intro k tb' h
    rw [o.tables, get_set c.table] at h
    by_cases e : th.table = k
    · simp [e] at h
      subst h
      exact o.keys
    · simp [e] at h
      exact c.str.keys h

/-! ## Leaving a table -/

/-- What `leaveTable` leaves behind. -/
def left (tb : Table) : Option Table := if tb.rc = 1 then none else some { tb with rc := tb.rc - 1 }

theorem leave_table {p : List Nat} {w : World} {k : Nat} {tb : Table} (b : Bal w p) (h : w.tables[k]? = some (some tb)) (hr : 0 < tb.rc) :
    ∃ w', w.leaveTable k tb = .ok w' ∧ Bal w' p ∧ w'.tables = w.tables.set k (left tb) ∧ w'.threads = w.threads ∧
      w'.files.length = w.files.length := by
  unfold World.leaveTable left
  have h0 : ¬ tb.rc = 0 := by omega
  simp only [h0, if_false]
  by_cases h1 : tb.rc = 1
  · simp only [h1, if_true]
    have b₁ : Bal (w.setTable k none) (filesOf tb.descs ++ p) := b.setTable h fun f => by
      simp [tref, List.count_append]
    exact b₁.releaseAll
  · simp only [h1, if_false]
    exact ⟨_, rfl, b.setTable h fun f => rfl, rfl, rfl, rfl⟩

theorem Ctx.rc_pos (c : Ctx w t th tb) : 0 < tb.rc := (c.str.rc c.table).2

theorem Ctx.refs_pos (c : Ctx w t th tb) : ∀ f ∈ filesOf tb.descs, 0 < refs w f := by
  intro f hf
  obtain ⟨e, he, rfl⟩ := List.mem_map.1 hf
  exact refs_table c.table he

theorem exit_out (c : Ctx w t th tb) : ∃ w', w.exit t th tb = .ok w' ∧ Bal w' [] ∧ w'.tables = w.tables.set th.table (left tb) ∧
    w'.threads = w.threads.set t none ∧ w'.files.length = w.files.length := by
  obtain ⟨w₁, e₁, b₁, t₁, h₁, s₁⟩ := leave_table c.bal c.table c.rc_pos
  obtain ⟨w₂, e₂, b₂, t₂, h₂, s₂⟩ := leave_call b₁ (t := t) (th := th) (by rw [h₁]; exact c.thread)
  have hx : w₂.threads[t]? = some (some { th with active := none }) := by
    rw [h₂, h₁]
    exact getElem?_set_self' c.thread
  refine ⟨w₂.setThread t none, by simp [World.exit, e₁, e₂], b₂.setThread hx fun f => by simp [href], ?_, ?_, ?_⟩
  · simp only [World.setThread]
    rw [t₂, t₁]
  · simp only [World.setThread]
    rw [h₂, h₁, List.set_set]
  · simp only [World.setThread]
    rw [s₂, s₁]

theorem exec_out (c : Ctx w t th tb) : ∃ w', w.exec t th tb = .ok w' ∧ Bal w' [] ∧
    w'.tables = w.tables.set th.table (left tb) ++ [some ⟨1, tb.descs.filter (!·.2.cloexec)⟩] ∧
    w'.threads = w.threads.set t (some ⟨w.tables.length, none⟩) ∧ w'.files.length = w.files.length := by
  have b₀ := c.bal.retainAll c.refs_pos
  obtain ⟨s1, s2, s3⟩ := retainAll_same (filesOf tb.descs) w
  obtain ⟨w₁, e₁, b₁, t₁, h₁, n₁⟩ := leave_table b₀ (by rw [s1]; exact c.table) c.rc_pos
  have b₁' : Bal w₁ (filesOf (tb.descs.filter (·.2.cloexec)) ++ filesOf (tb.descs.filter (!·.2.cloexec))) := b₁.perm fun f => by
    have := count_filter tb.descs (·.2.cloexec) f
    simp only [List.count_append, List.append_nil]
    omega
  obtain ⟨w₂, e₂, b₂, t₂, h₂, n₂⟩ := b₁'.releaseAll
  have hlen : w₂.tables.length = w.tables.length := by rw [t₂, t₁, s1]; simp
  have b₃ : Bal (w₂.addTable ⟨1, tb.descs.filter (!·.2.cloexec)⟩) [] := b₂.addTable fun f => by simp [tref]
  have hth : (w₂.addTable ⟨1, tb.descs.filter (!·.2.cloexec)⟩).threads[t]? = some (some th) := by
    simp only [World.addTable]
    rw [h₂, h₁, s2]
    exact c.thread
  have b₄ : Bal ((w₂.addTable ⟨1, tb.descs.filter (!·.2.cloexec)⟩).setThread t (some { th with table := w₂.tables.length })) [] :=
    b₃.setThread hth fun f => rfl
  obtain ⟨w₅, e₅, b₅, t₅, h₅, n₅⟩ := leave_call b₄ (t := t) (th := { th with table := w₂.tables.length }) (getElem?_set_self' hth)
  refine ⟨w₅, ?_, b₅, ?_, ?_, ?_⟩
  · simp only [World.exec, e₁, R.bind_ok, e₂, e₅]
  · rw [t₅]
    simp only [World.setThread, World.addTable]
    rw [t₂, t₁, s1]
  · rw [h₅]
    simp only [World.setThread, World.addTable]
    rw [List.set_set, h₂, h₁, s2, hlen]
  · rw [n₅]
    simp only [World.setThread, World.addTable]
    rw [n₂, n₁, s3]

theorem clone_share (c : Ctx w t th tb) : Bal (w.clone th tb true) [] ∧
    (w.clone th tb true).tables = w.tables.set th.table (some { tb with rc := tb.rc + 1 }) ∧
    (w.clone th tb true).threads = w.threads ++ [some ⟨th.table, none⟩] ∧ (w.clone th tb true).files.length = w.files.length := by
  refine ⟨?_, rfl, rfl, rfl⟩
  have b := c.bal.setTable (k := th.table) (o' := some { tb with rc := tb.rc + 1 }) (p' := []) c.table fun f => rfl
  refine b.move rfl fun f => ?_
  simp [World.clone, refs, World.setTable, href]

theorem clone_copy (c : Ctx w t th tb) : Bal (w.clone th tb false) [] ∧
    (w.clone th tb false).tables = w.tables ++ [some ⟨1, tb.descs⟩] ∧
    (w.clone th tb false).threads = w.threads ++ [some ⟨w.tables.length, none⟩] ∧ (w.clone th tb false).files.length = w.files.length := by
  have b₀ := c.bal.retainAll c.refs_pos
  obtain ⟨s1, s2, s3⟩ := retainAll_same (filesOf tb.descs) w
  have b₁ : Bal ((w.retainAll (filesOf tb.descs)).addTable ⟨1, tb.descs⟩) [] := b₀.addTable fun f => by simp [tref]
  refine ⟨b₁.move rfl fun f => ?_, ?_, ?_, ?_⟩
  · simp [World.clone, refs, World.addTable, href]
  · simp [World.clone, World.addTable, s1]
  · simp [World.clone, World.addTable, s1, s2]
  · simp [World.clone, World.addTable, s3]

/-! ## The invariant -/

theorem left_eq {q : Table} (h : left tb = some q) : q = { tb with rc := tb.rc - 1 } ∧ tb.rc ≠ 1 := by
  unfold left at h
  split at h
  · cases h
  · rename_i hr
    exact ⟨(Option.some.inj h).symm, hr⟩

/-- A live thread other than the one that leaves keeps its table. -/
theorem left_live (c : Ctx w t th tb) {u : Nat} {th' : Thread} (hu : w.threads[u]? = some (some th')) (hne : t ≠ u) (he : th'.table = th.table) :
    tb.rc ≠ 1 := by
  intro h1
  have h2 := (c.str.rc c.table).1
  have h3 := users_set c.thread none th.table
  have h4 : 0 < ((w.threads.set t none).map (uses th.table)).sum := by
    have hx : (w.threads.set t none)[u]? = some (some th') := by simp [hne, hu]
    have := le_sum (uses th.table) hx
    simp only [uses, he, if_true] at this
    exact this
  simp only [uses, if_true] at h3
  omega

theorem exit_str (c : Ctx w t th tb) (ht : w'.tables = w.tables.set th.table (left tb)) (hh : w'.threads = w.threads.set t none) : Str w' := by
  have hu : ∀ k, users w' k + uses k (some th) = users w k := by
    intro k
    have := users_set c.thread none k
    simp only [users, hh]
    simp only [users, uses] at this ⊢
    omega
  constructor
  · intro k q h
    rw [ht, get_set c.table] at h
    by_cases e : th.table = k
    · subst e
      simp at h
      obtain ⟨rfl, hr⟩ := left_eq h
      have := hu th.table
      have := c.str.rc c.table
      simp only [uses, if_true] at *
      omega
    · simp [e] at h
      have := hu k
      have := c.str.rc h
      simp only [uses, e, if_false] at *
      omega
  · intro u th' h
    rw [hh, get_set c.thread] at h
    by_cases e : t = u
    · simp [e] at h
    · simp [e] at h
      rw [ht, get_set c.table]
      by_cases e' : th.table = th'.table
      · have := left_live c h e e'.symm
        exact ⟨{ tb with rc := tb.rc - 1 }, by simp [e', left, this]⟩
      · obtain ⟨q, hq⟩ := c.str.live h
        exact ⟨q, by simp [e', hq]⟩
  · intro k q h
    rw [ht, get_set c.table] at h
    by_cases e : th.table = k
    · simp [e] at h
      obtain ⟨rfl, hr⟩ := left_eq h
      exact c.keys
    · simp [e] at h
      exact c.str.keys h

theorem table_lt {k : Nat} {o : Option Table} (h : w.tables[k]? = some o) : k < w.tables.length := by
  rw [List.getElem?_eq_some_iff] at h
  exact h.1

theorem get_snoc {α : Type} (l : List α) (x : α) (i : Nat) : (l ++ [x])[i]? = if i = l.length then some x else l[i]? := by
  rw [List.getElem?_append]
  split
  · rename_i h
    have : i ≠ l.length := by omega
    simp [this]
  · rename_i h
    by_cases e : i = l.length
    · simp [e]
    · rw [List.getElem?_eq_none (by simp; omega)]
      simp [e]
      omega

theorem exec_str (c : Ctx w t th tb) {l : List (Nat × Desc)} (hk : KeysOk l) (ht : w'.tables = w.tables.set th.table (left tb) ++ [some ⟨1, l⟩])
    (hh : w'.threads = w.threads.set t (some ⟨w.tables.length, none⟩)) : Str w' := by
  have hlt := table_lt c.table
  have hu : ∀ k, users w' k + uses k (some th) = users w k + (if w.tables.length = k then 1 else 0) := by
    intro k
    have := users_set c.thread (some ⟨w.tables.length, none⟩) k
    simp only [users, hh]
    simp only [users, uses] at this ⊢
    omega
  have hget : ∀ k, w'.tables[k]? = if k = w.tables.length then some (some ⟨1, l⟩) else if th.table = k then some (left tb) else w.tables[k]? := by
    intro k
    rw [ht, get_snoc, get_set c.table]
    simp
  have hnew : users w w.tables.length = 0 := by
    cases hz : users w w.tables.length with
    | zero => rfl
    | succ n =>
      obtain ⟨u, o, ho, hp⟩ := sum_pos (uses w.tables.length) (l := w.threads) (by simp only [users] at hz; omega)
      cases o with
      | none => simp [uses] at hp
      | some th' =>
        simp only [uses] at hp
        split at hp
        · rename_i e
          obtain ⟨q, hq⟩ := c.str.live ho
          have := table_lt hq
          omega
        · omega
  constructor
  · intro k q h
    rw [hget] at h
    have h1 := hu k
    by_cases e₀ : k = w.tables.length
    · subst e₀
      simp only [if_true, Option.some.injEq] at h
      subst h
      simp only [uses, if_true] at h1
      have : ¬ th.table = w.tables.length := by omega
      simp only [this, if_false] at h1
      simp
      omega
    · simp only [e₀, if_false] at h
      have e₀' : ¬ w.tables.length = k := fun h => e₀ h.symm
      simp only [e₀', if_false] at h1
      by_cases e : th.table = k
      · subst e
        simp at h
        obtain ⟨rfl, hr⟩ := left_eq h
        have := c.str.rc c.table
        simp only [uses, if_true] at *
        omega
      · simp [e] at h
        have := c.str.rc h
        simp only [uses, e, if_false] at *
        omega
  · intro u th' h
    rw [hh, get_set c.thread] at h
    rw [hget]
    by_cases e : t = u
    · simp [e] at h
      subst h
      exact ⟨_, by simp; rfl⟩
    · simp [e] at h
      obtain ⟨q, hq⟩ := c.str.live h
      have hl := table_lt hq
      have : ¬ th'.table = w.tables.length := by omega
      simp only [this, if_false]
      by_cases e' : th.table = th'.table
      · have := left_live c h e e'.symm
        exact ⟨{ tb with rc := tb.rc - 1 }, by simp [e', left, this]⟩
      · exact ⟨q, by simp [e', hq]⟩
  · intro k q h
    rw [hget] at h
    by_cases e₀ : k = w.tables.length
    · simp [e₀] at h
      subst h
      exact hk
    · simp only [e₀, if_false] at h
      by_cases e : th.table = k
      · simp [e] at h
        obtain ⟨rfl, hr⟩ := left_eq h
        exact c.keys
      · simp [e] at h
        exact c.str.keys h

theorem users_snoc {o : Option Thread} (hh : w'.threads = w.threads ++ [o]) (k : Nat) : users w' k = users w k + uses k o := by
  simp [users, hh]

theorem share_str (c : Ctx w t th tb) (ht : w'.tables = w.tables.set th.table (some { tb with rc := tb.rc + 1 }))
    (hh : w'.threads = w.threads ++ [some ⟨th.table, none⟩]) : Str w' := by
  constructor
  · intro k q h
    rw [ht, get_set c.table] at h
    rw [users_snoc hh]
    by_cases e : th.table = k
    · subst e
      simp at h
      subst h
      have := c.str.rc c.table
      simp only [uses, if_true]
      omega
    · simp [e] at h
      have := c.str.rc h
      simp only [uses, e, if_false]
      omega
  · intro u th' h
    rw [hh, get_snoc] at h
    have hl : ∃ q, w.tables[th'.table]? = some (some q) := by
      split at h
      · cases h
        exact ⟨_, c.table⟩
      · exact c.str.live h
    obtain ⟨q, hq⟩ := hl
    rw [ht, get_set c.table]
    by_cases e : th.table = th'.table
    · exact ⟨_, by simp [e]; rfl⟩
    · exact ⟨q, by simp [e, hq]⟩
  · intro k q h
    rw [ht, get_set c.table] at h
    by_cases e : th.table = k
    · simp [e] at h
      subst h
      exact c.keys
    · simp [e] at h
      exact c.str.keys h

theorem copy_str (c : Ctx w t th tb) (ht : w'.tables = w.tables ++ [some ⟨1, tb.descs⟩])
    (hh : w'.threads = w.threads ++ [some ⟨w.tables.length, none⟩]) : Str w' := by
  have hnew : users w w.tables.length = 0 := by
    cases hz : users w w.tables.length with
    | zero => rfl
    | succ n =>
      obtain ⟨u, o, ho, hp⟩ := sum_pos (uses w.tables.length) (l := w.threads) (by simp only [users] at hz; omega)
      cases o with
      | none => simp [uses] at hp
      | some th' =>
        simp only [uses] at hp
        split at hp
        · rename_i e
          obtain ⟨q, hq⟩ := c.str.live ho
          have := table_lt hq
          omega
        · omega
  constructor
  · intro k q h
    rw [ht, get_snoc] at h
    rw [users_snoc hh]
    by_cases e : k = w.tables.length
    · simp [e] at h
      subst h
      simp [uses, e, hnew]
    · simp [e] at h
      have := c.str.rc h
      have e' : ¬ w.tables.length = k := fun h => e h.symm
      simp only [uses, e', if_false]
      omega
  · intro u th' h
    rw [hh, get_snoc] at h
    rw [ht, get_snoc]
    split at h
    · cases h
      exact ⟨_, by simp; rfl⟩
    · obtain ⟨q, hq⟩ := c.str.live h
      have := table_lt hq
      have e' : ¬ th'.table = w.tables.length := by omega
      exact ⟨q, by simp [e', hq]⟩
  · intro k q h
    rw [ht, get_snoc] at h
    by_cases e : k = w.tables.length
    · simp [e] at h
      subst h
      exact c.keys
    · simp [e] at h
      exact c.str.keys h

/-- The context of a step. -/
theorem step_ctx (i : Inv w) {a : Act} {o : R (World × Ret)} (h : w.step a = some o) :
    ∃ th tb, Ctx w a.thread th tb ∧ w.act a.thread th tb a = some o := by
  unfold World.step at h
  cases hth : w.threads[a.thread]? with
  | none => simp [hth] at h
  | some x =>
    cases x with
    | none => simp [hth] at h
    | some th =>
      obtain ⟨tb, htb⟩ := i.str.live hth
      have : w.tableOf th = .ok tb := by simp [World.tableOf, htb]
      simp only [hth, this] at h
      exact ⟨th, tb, ⟨i.bal, i.str, hth, htb⟩, h⟩

/-- No step fails, and every step keeps the invariant. -/
theorem step_inv (i : Inv w) {a : Act} {o : R (World × Ret)} (h : w.step a = some o) : ∃ w' r, o = .ok (w', r) ∧ Inv w' := by
  obtain ⟨th, tb, c, h⟩ := step_ctx i h
  cases hm : a.moves with
  | false =>
    obtain ⟨w', r, l, x, m, e, out⟩ := act_out c hm rfl h
    exact ⟨w', r, e, out.bal, out.str c⟩
  | true =>
    cases a with
    | clone t s =>
      cases h
      cases s with
      | true =>
        obtain ⟨h1, h2, h3, _⟩ := clone_share c
        exact ⟨_, _, rfl, h1, share_str c h2 h3⟩
      | false =>
        obtain ⟨h1, h2, h3, _⟩ := clone_copy c
        exact ⟨_, _, rfl, h1, copy_str c h2 h3⟩
    | exec t =>
      cases h
      obtain ⟨w', e, h1, h2, h3, _⟩ := exec_out c
      simp only [Act.thread] at e
      exact ⟨w', .done, by simp only [Act.thread, e]; rfl, h1, exec_str c (c.keys.filter _) h2 h3⟩
    | exit t =>
      cases h
      obtain ⟨w', e, h1, h2, h3, _⟩ := exit_out c
      simp only [Act.thread] at e
      exact ⟨w', .done, by simp only [Act.thread, e]; rfl, h1, exit_str c h2 h3⟩
    | _ => cases hm

end Shadow.Files
