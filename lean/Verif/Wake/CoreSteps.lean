import Verif.Wake.States

/-!
The parts of a step keep `Core` (C67).
-/

namespace Shadow.Wake

open Shadow.Base

theorem owned_ext {s s' : St} {d e : Nat}
    (h : (∃ t ∈ s'.ths, t.cond = some d) ↔ (∃ t ∈ s.ths, t.cond = some e)) : owned s' d = owned s e := by
  rw [Bool.eq_iff_iff, mem_owned, mem_owned]
  exact h

theorem owned_false {s : St} {c : Nat} (h : ∀ t ∈ s.ths, t.cond ≠ some c) : owned s c = false := by
  cases hx : owned s c
  · rfl
  · obtain ⟨t, ht, hc⟩ := mem_owned.1 hx
    exact absurd hc (h t ht)

theorem goSt_core {s : St} (h : Core s) {t : Th} (ht : t ∈ s.ths) (hn : s.cur = none) (hc : t.cond = none) (why : Why)
    (hs : ∀ x, (x, Task.start t.pid t.tid) ∉ s.queue) : Core (goSt s t.uid why) := by
  have ho : ∀ d, owned (goSt s t.uid why) d = owned s d := fun _ => rfl
  obtain ⟨hI, hC, hQ, hN⟩ := h
  refine ⟨⟨hI.uniq, hI.lt, hI.tids, hI.lead, hI.tidOf, by grind⟩, ?_, ?_, ⟨hN.nd⟩⟩
  · constructor
    · exact hC.own
    · grind [→ hC.wait]
    · grind [→ hI.uniq]
    · exact hC.lis
    · exact hC.tim
    · exact hC.refs
    · exact hC.freed
    · exact hC.fresh
    · exact hC.wk
    · exact hC.orph
    · exact hC.gone
    · exact hC.clt
  · constructor
    · exact hQ.qge
    · exact hQ.qeq
    · exact hQ.qtim
    · grind [→ hQ.qstart, → hI.uniq]
    · exact hQ.qlead
    · exact hQ.qone
    · intro x p y d; have := hQ.qvirg x p y d; grind
    · exact hQ.qsid

theorem runSt_core {s : St} (h : Core s) {t : Th} {c : Nat} (ht : t ∈ s.ths) (hn : s.cur = none) (hc : t.cond = some c)
    (why : Why) (hw : (why = .wake c ∧ (s.conds c).sched = false) ∨ (why ≠ .wake c ∧ t.pid ∈ s.execd)) :
    Core (runSt s c t.uid why) := by
  have ho : ∀ d, owned (runSt s c t.uid why) d = owned s d := fun _ => rfl
  obtain ⟨hI, hC, hQ, hN⟩ := h
  have h1 := hC.own t c ht hc
  have h2 := hC.wait t c ht hc (by grind)
  have hoc : owned s c = true := mem_owned.2 ⟨t, ht, hc⟩
  refine ⟨⟨hI.uniq, hI.lt, hI.tids, hI.lead, hI.tidOf, by grind⟩, ?_, ?_, ⟨hN.nd⟩⟩
  · constructor
    · grind [→ hC.own]
    · grind [→ hC.wait, → hC.own]
    · grind [→ hI.uniq]
    · grind [→ hC.lis]
    · grind [→ hC.tim]
    · intro d
      have := hC.refs d
      rw [ho]
      by_cases hd : d = c
      · subst hd
        simp [hoc] at this ⊢
        omega
      · simp [hd, this]
    · intro d hd
      have := hC.freed d hd
      have hr := hC.refs d
      by_cases hd : d = c
      · subst hd
        simp [hoc] at this hr ⊢
        rw [this]
        omega
      · simp [hd, this]
    · grind [→ hC.fresh]
    · intro d
      have := hC.wk d
      by_cases hd : d = c
      · subst hd; simp [this]
      · simp [hd, this]
    · grind [→ hC.orph]
    · intro d t' hd hcut ht' hp htid
      by_cases hdc : d = c
      · subst hdc
        have h5 := hI.tids t t' ht ht'
        grind
      · exact hC.gone d t' (by simpa using hd) (by simpa [hdc] using hcut) ht' (by simpa [hdc] using hp) (by simpa [hdc] using htid)
    · grind [→ hC.clt]
  · constructor
    · exact hQ.qge
    · exact hQ.qeq
    · grind [→ hQ.qtim]
    · grind [→ hQ.qstart, → hI.uniq]
    · exact hQ.qlead
    · exact hQ.qone
    · intro x p y d; have := hQ.qvirg x p y d; grind
    · exact hQ.qsid

theorem leaveSt_core {s : St} (h : Core s) {t : Th} (ht : t ∈ s.ths) (hu : s.cur ≠ some t.uid) (hc : t.cond = none) :
    Core (leaveSt s t.uid) := by
  obtain ⟨hI, hC, hQ, hN⟩ := h
  have ho : ∀ d, owned (leaveSt s t.uid) d = owned s d := by
    intro d
    refine owned_ext ⟨by grind, ?_⟩
    rintro ⟨t', h1, h2⟩
    exact ⟨t', by grind [→ hI.uniq], h2⟩
  refine ⟨⟨?_, ?_, ?_, ?_, ?_, ?_⟩, ?_, ?_, ⟨nd_filter hN _⟩⟩
  · grind [→ hI.uniq]
  · grind [→ hI.lt]
  · grind [→ hI.tids]
  · grind [→ hI.lead]
  · grind [→ hI.tidOf]
  · grind [→ hI.cur]
  · constructor
    · grind [→ hC.own]
    · grind [→ hC.wait]
    · grind [→ hC.runs]
    · intro d hd
      rw [← mem_owned, ho, mem_owned]
      exact hC.lis d hd
    · exact hC.tim
    · intro d; rw [ho]; exact hC.refs d
    · exact hC.freed
    · exact hC.fresh
    · exact hC.wk
    · intro d; rw [ho]; exact hC.orph d
    · grind [→ hC.gone]
    · exact hC.clt
  · constructor
    · exact hQ.qge
    · exact hQ.qeq
    · exact hQ.qtim
    · grind [→ hQ.qstart]
    · grind [→ hQ.qlead]
    · exact hQ.qone
    · intro x p y d; have := hQ.qvirg x p y d; grind
    · exact hQ.qsid

theorem quitSt_core {s : St} (h : Core s) {t : Th} (ht : t ∈ s.ths) (hu : s.cur = some t.uid) (hc : t.cond = none) :
    Core (quitSt s t.uid) := by
  obtain ⟨hI, hC, hQ, hN⟩ := h
  have ho : ∀ d, owned (quitSt s t.uid) d = owned s d := by
    intro d
    refine owned_ext ⟨by grind, ?_⟩
    rintro ⟨t', h1, h2⟩
    exact ⟨t', by grind [→ hI.uniq], h2⟩
  refine ⟨⟨?_, ?_, ?_, ?_, ?_, ?_⟩, ?_, ?_, ⟨nd_filter hN _⟩⟩
  · grind [→ hI.uniq]
  · grind [→ hI.lt]
  · grind [→ hI.tids]
  · grind [→ hI.lead]
  · grind [→ hI.tidOf]
  · grind [→ hI.cur]
  · constructor
    · grind [→ hC.own]
    · grind [→ hC.wait]
    · grind [→ hC.runs]
    · intro d hd
      rw [← mem_owned, ho, mem_owned]
      exact hC.lis d hd
    · exact hC.tim
    · intro d; rw [ho]; exact hC.refs d
    · exact hC.freed
    · exact hC.fresh
    · exact hC.wk
    · intro d; rw [ho]; exact hC.orph d
    · grind [→ hC.gone]
    · exact hC.clt
  · constructor
    · exact hQ.qge
    · exact hQ.qeq
    · exact hQ.qtim
    · grind [→ hQ.qstart]
    · grind [→ hQ.qlead]
    · exact hQ.qone
    · intro x p y d; have := hQ.qvirg x p y d; grind
    · exact hQ.qsid

theorem dropSt_core {s : St} (h : Core s) {t : Th} {c : Nat} (ht : t ∈ s.ths) (hu : s.cur ≠ some t.uid)
    (hc : t.cond = some c) : Core (dropSt s c t.uid) := by
  obtain ⟨hI, hC, hQ, hN⟩ := h
  have h1 := hC.own t c ht hc
  have h2 := hC.wait t c ht hc hu
  have hoc : owned s c = true := mem_owned.2 ⟨t, ht, hc⟩
  have hon : owned (dropSt s c t.uid) c = false := by
    refine owned_false ?_
    intro t' h3 h4
    simp at h3
    have := hC.own t' c h3.1 h4
    grind
  have ho : ∀ d, d ≠ c → owned (dropSt s c t.uid) d = owned s d := by
    intro d hd
    refine owned_ext ⟨by grind, ?_⟩
    rintro ⟨t', h1, h2⟩
    exact ⟨t', by grind [→ hI.uniq], h2⟩
  refine ⟨⟨?_, ?_, ?_, ?_, ?_, ?_⟩, ?_, ?_, ⟨nd_filter hN _⟩⟩
  · grind [→ hI.uniq]
  · grind [→ hI.lt]
  · grind [→ hI.tids]
  · grind [→ hI.lead]
  · grind [→ hI.tidOf]
  · grind [→ hI.cur]
  · constructor
    · grind [→ hC.own]
    · grind [→ hC.wait, → hC.own]
    · grind [→ hC.runs, → hC.own]
    · intro d hd
      have hdc : d ≠ c := by grind
      rw [← mem_owned, ho d hdc, mem_owned]
      exact hC.lis d (by simpa [hdc] using hd)
    · grind [→ hC.tim]
    · intro d
      have := hC.refs d
      by_cases hd : d = c
      · subst hd
        rw [hon]
        simp [hoc] at this ⊢
        omega
      · rw [ho d hd]; simp [hd, this]
    · intro d hd
      have := hC.freed d hd
      have hr := hC.refs d
      by_cases hd : d = c
      · subst hd
        simp [hoc] at this hr ⊢
        omega
      · simp [hd, this]
    · grind [→ hC.fresh]
    · intro d
      have := hC.wk d
      by_cases hd : d = c
      · subst hd; simp [this]
      · simp [hd, this]
    · intro d hd hq
      by_cases hdc : d = c
      · subst hdc; simp
      · rw [ho d hdc] at hd
        have := hC.orph d hd (by simpa [hdc] using hq)
        simpa [hdc] using this
    · intro d t' hd hcut ht' hp htid
      simp at ht'
      by_cases hdc : d = c
      · subst hdc
        have h5 := hI.tids t t' ht ht'.1
        grind
      · exact hC.gone d t' (by simpa using hd) (by simpa [hdc] using hcut) ht'.1 (by simpa [hdc] using hp) (by simpa [hdc] using htid)
    · grind [→ hC.clt]
  · constructor
    · exact hQ.qge
    · exact hQ.qeq
    · grind [→ hQ.qtim]
    · grind [→ hQ.qstart]
    · grind [→ hQ.qlead]
    · exact hQ.qone
    · intro x p y d; have := hQ.qvirg x p y d; grind
    · exact hQ.qsid

theorem oldSt_core {s : St} (h : Core s) {t : Th} {c : Nat} (ht : t ∈ s.ths) (hu : s.cur = some t.uid)
    (hc : t.cond = some c) : Core (oldSt s c t.uid) := by
  obtain ⟨hI, hC, hQ, hN⟩ := h
  have h1 := hC.own t c ht hc
  have h2 := hC.runs t c ht hc hu
  have hoc : owned s c = true := mem_owned.2 ⟨t, ht, hc⟩
  have hon : owned (oldSt s c t.uid) c = false := by
    refine owned_false ?_
    intro t' h3 h4
    simp at h3
    obtain ⟨a, ha, rfl⟩ := h3
    by_cases hx : a.uid = t.uid
    · rw [if_pos hx] at h4; cases h4
    · rw [if_neg hx] at h4
      have := hC.own a c ha h4
      grind
  have ho : ∀ d, d ≠ c → owned (oldSt s c t.uid) d = owned s d := by
    intro d hd
    refine owned_ext ⟨by grind, ?_⟩
    rintro ⟨t', h1, h2⟩
    refine ⟨t', ?_, h2⟩
    simp
    exact ⟨t', h1, by grind [→ hI.uniq]⟩
  refine ⟨⟨?_, ?_, ?_, ?_, ?_, ?_⟩, ?_, ?_, ⟨nd_map hN _ (fun x => by split <;> rfl)⟩⟩
  · grind [→ hI.uniq]
  · grind [→ hI.lt]
  · grind [→ hI.tids]
  · grind [→ hI.lead]
  · grind [→ hI.tidOf]
  · intro u hx
    obtain ⟨t', h3, h4⟩ := hI.cur u hx
    simp only [oldSt_ths, List.mem_map]
    refine ⟨_, ⟨t', h3, rfl⟩, ?_⟩
    grind
  · constructor
    · grind [→ hC.own]
    · grind [→ hC.wait, → hC.own]
    · grind [→ hC.runs, → hC.own]
    · intro d hd
      have hdc : d ≠ c := by grind
      rw [← mem_owned, ho d hdc, mem_owned]
      exact hC.lis d (by simpa [hdc] using hd)
    · grind [→ hC.tim]
    · intro d
      have := hC.refs d
      by_cases hd : d = c
      · subst hd
        rw [hon]
        simp [hoc] at this ⊢
        omega
      · rw [ho d hd]; simp [hd, this]
    · intro d hd
      have := hC.freed d hd
      have hr := hC.refs d
      by_cases hd : d = c
      · subst hd
        simp [hoc] at this hr ⊢
        omega
      · simp [hd, this]
    · grind [→ hC.fresh]
    · intro d
      have := hC.wk d
      by_cases hd : d = c
      · subst hd; simp [this]
      · simp [hd, this]
    · intro d hd hq
      by_cases hdc : d = c
      · subst hdc; simpa using h2.2 (by simpa using hq)
      · rw [ho d hdc] at hd
        have := hC.orph d hd (by simpa [hdc] using hq)
        simpa [hdc] using this
    · grind [→ hC.gone]
    · grind [→ hC.clt]
  · constructor
    · exact hQ.qge
    · exact hQ.qeq
    · grind [→ hQ.qtim]
    · grind [→ hQ.qstart]
    · grind [→ hQ.qlead]
    · exact hQ.qone
    · intro x p y d; have := hQ.qvirg x p y d; grind
    · exact hQ.qsid

/-- Facts about taking the task `(x, k)` from the queue. -/
structure Pop (s : St) (q : List (Nat × Task)) (x : Nat) (k : Task) : Prop where
  mem : ∀ a, a ∈ q → a ∈ s.queue
  hd : (x, k) ∈ s.queue
  mn : ∀ a, a ∈ s.queue → x ≤ a.1
  back : ∀ a, a ∈ s.queue → a ≠ (x, k) → a ∈ q
  cnt : ∀ P : Nat × Task → Bool, s.queue.countP P = q.countP P + if P (x, k) then 1 else 0
  sub : q.Sublist s.queue
  ord : ∀ P : Nat × Task → Nat × Task → Prop, s.queue.Pairwise P → ∀ a ∈ q, a.1 = x → P (x, k) a

theorem minIdx_spec : ∀ (q : List (Nat × Task)) (e : Nat × Task), q[minIdx q]? = some e →
    (∀ a ∈ q, e.1 ≤ a.1) ∧ (∀ P : Nat × Task → Nat × Task → Prop, q.Pairwise P →
      ∀ a ∈ q.eraseIdx (minIdx q), a.1 = e.1 → P e a)
  | [], e, h => by simp [minIdx] at h
  | a :: q, e, h => by
    have ih := minIdx_spec q
    unfold minIdx at h ⊢
    cases hb : q[minIdx q]? with
    | none =>
      rw [hb] at h
      simp at h
      subst h
      have hq : q = [] := by
        cases q with
        | nil => rfl
        | cons b q =>
          exfalso
          have : minIdx (b :: q) < (b :: q).length := by
            unfold minIdx
            split
            · simp
            · rename_i hx
              split
              · simp
              · have := (List.getElem?_eq_some_iff.1 hx).1
                simp; omega
          rw [List.getElem?_eq_getElem this] at hb
          cases hb
      subst hq
      simp
    | some b =>
      obtain ⟨i1, i2⟩ := ih b hb
      rw [hb] at h
      dsimp only at h ⊢
      by_cases hle : a.1 ≤ b.1
      · rw [if_pos hle] at h ⊢
        simp at h
        subst h
        refine ⟨?_, ?_⟩
        · intro x hx
          rcases List.mem_cons.1 hx with rfl | hx
          · exact Nat.le_refl _
          · have := i1 x hx; omega
        · intro P hP x hx _
          simp at hx
          exact (List.pairwise_cons.1 hP).1 x hx
      · rw [if_neg hle] at h ⊢
        simp at h
        rw [hb] at h
        cases h
        refine ⟨?_, ?_⟩
        · intro x hx
          rcases List.mem_cons.1 hx with rfl | hx
          · omega
          · exact i1 x hx
        · intro P hP x hx hxe
          simp at hx
          rcases hx with rfl | hx
          · omega
          · exact i2 P (List.pairwise_cons.1 hP).2 x hx hxe

theorem countP_eraseIdx' (P : Nat × Task → Bool) : ∀ (q : List (Nat × Task)) (i : Nat) (e : Nat × Task), q[i]? = some e →
    q.countP P = (q.eraseIdx i).countP P + if P e then 1 else 0
  | [], _, _, h => by simp at h
  | a :: q, 0, e, h => by
    simp at h
    subst h
    simp [List.countP_cons]
  | a :: q, i + 1, e, h => by
    simp at h
    have := countP_eraseIdx' P q i e h
    simp [List.countP_cons, this]
    omega

theorem mem_eraseIdx_of_ne : ∀ (q : List (Nat × Task)) (i : Nat) (e a : Nat × Task), q[i]? = some e → a ∈ q → a ≠ e →
    a ∈ q.eraseIdx i
  | [], _, _, _, h, _, _ => by simp at h
  | b :: q, 0, e, a, h, ha, hn => by
    simp at h
    subst h
    rcases List.mem_cons.1 ha with rfl | ha
    · exact absurd rfl hn
    · simpa using ha
  | b :: q, i + 1, e, a, h, ha, hn => by
    simp at h
    rcases List.mem_cons.1 ha with rfl | ha
    · simp
    · simp [mem_eraseIdx_of_ne q i e a h ha hn]

theorem pop_of {s : St} {x : Nat} {k : Task} (h : s.queue[minIdx s.queue]? = some (x, k)) :
    Pop s (s.queue.eraseIdx (minIdx s.queue)) x k := by
  obtain ⟨h1, h2⟩ := minIdx_spec _ _ h
  exact ⟨fun a ha => List.mem_of_mem_eraseIdx ha, List.mem_of_getElem? h, h1,
    fun a ha hn => mem_eraseIdx_of_ne _ _ _ a h ha hn, fun P => countP_eraseIdx' P _ _ _ h, List.eraseIdx_sublist _ _, h2⟩

theorem pop_cds_wk {s : St} {q x k} (hp : Pop s q x k) (hk : ∀ c, k ≠ .wake c) (c : Nat) : wakes q c = wakes s.queue c := by
  have := hp.cnt (fun y => y.2 = .wake c)
  have h1 : ¬ k = .wake c := hk c
  simp [h1] at this
  exact this.symm

theorem popSt_core {s : St} (h : Core s) {q x k} (hp : Pop s q x k) (hk : ∀ c, k ≠ .wake c) : Core (popSt s q x) := by
  have ho : ∀ d, owned (popSt s q x) d = owned s d := fun _ => rfl
  obtain ⟨hI, hC, hQ, hN⟩ := h
  refine ⟨⟨hI.uniq, hI.lt, hI.tids, hI.lead, hI.tidOf, hI.cur⟩, ?_, ?_, ⟨hN.nd⟩⟩
  · constructor
    · exact hC.own
    · exact hC.wait
    · exact hC.runs
    · exact hC.lis
    · exact hC.tim
    · exact hC.refs
    · exact hC.freed
    · exact hC.fresh
    · intro c
      exact (pop_cds_wk hp hk c).trans (hC.wk c)
    · exact hC.orph
    · exact hC.gone
    · exact hC.clt
  · constructor
    · intro a ha; exact hp.mn a (hp.mem a ha)
    · intro a ha hn
      have := hQ.qeq a (hp.mem a ha) hn
      have h2 := hQ.qge _ hp.hd
      simp at h2 ⊢
      omega
    · intro y c hy; exact hQ.qtim y c (hp.mem _ hy)
    · intro y p z t hy; exact hQ.qstart y p z t (hp.mem _ hy)
    · intro y p z t hy; exact hQ.qlead y p z t (hp.mem _ hy)
    · intro p y
      have := hQ.qone p y
      have h2 := hp.cnt (fun q => q.2 = .start p y)
      simp only [popSt_queue]
      omega
    · intro y p z d hy; have := hQ.qvirg y p z d (hp.mem _ hy); grind
    · intro y p z hy; exact hQ.qsid y p z (hp.mem _ hy)

theorem relSt_core {s : St} (h : Core s) {q x c} (hp : Pop s q x (.wake c)) : Core (relSt s q x c) := by
  have ho : ∀ d, owned (relSt s q x c) d = owned s d := fun _ => rfl
  obtain ⟨hI, hC, hQ, hN⟩ := h
  have hs : (s.conds c).sched = true := by
    have h1 := hC.wk c
    have h2 := hp.cnt (fun y => y.2 = .wake c)
    simp at h2
    cases hx : (s.conds c).sched
    · rw [hx] at h1; simp [wakes] at h1; have := h1 _ _ hp.hd; simp at this
    · rfl
  refine ⟨⟨hI.uniq, hI.lt, hI.tids, hI.lead, hI.tidOf, hI.cur⟩, ?_, ?_, ⟨hN.nd⟩⟩
  · constructor
    · grind [→ hC.own]
    · grind [→ hC.wait]
    · grind [→ hC.runs]
    · grind [→ hC.lis]
    · grind [→ hC.tim]
    · intro d
      have := hC.refs d
      rw [ho]
      by_cases hd : d = c
      · subst hd
        simp [hs] at this ⊢
        omega
      · simp [hd, this]
    · intro d hd
      have := hC.freed d hd
      have hr := hC.refs d
      by_cases hd : d = c
      · subst hd
        simp [hs] at this hr ⊢
        omega
      · simp [hd, this]
    · grind [→ hC.fresh]
    · intro d
      have h1 := hC.wk d
      have h2 := hp.cnt (fun y => y.2 = .wake d)
      simp only [relSt_queue, relSt_conds]
      by_cases hd : d = c
      · subst hd
        simp [wakes, hs] at h1 h2 ⊢
        intro a b hab
        have : List.countP (fun y => decide (y.snd = Task.wake d)) q = 0 := by omega
        simp at this
        exact this a b hab
      · have hd' : ¬ c = d := fun e => hd e.symm
        simp [hd, hd'] at h2 ⊢
        rw [← h1]
        exact h2.symm
    · grind [→ hC.orph]
    · grind [→ hC.gone]
    · grind [→ hC.clt]
  · constructor
    · intro a ha; exact hp.mn a (hp.mem a ha)
    · intro a ha hn
      have := hQ.qeq a (hp.mem a ha) hn
      have h2 := hQ.qge _ hp.hd
      simp at h2 ⊢
      omega
    · intro y d hy
      have := hQ.qtim y d (hp.mem _ hy)
      grind
    · intro y p z t hy; exact hQ.qstart y p z t (hp.mem _ hy)
    · intro y p z t hy; exact hQ.qlead y p z t (hp.mem _ hy)
    · intro p y
      have := hQ.qone p y
      have h2 := hp.cnt (fun q => q.2 = .start p y)
      simp only [relSt_queue]
      omega
    · intro y p z d hy; have := hQ.qvirg y p z d (hp.mem _ hy); grind
    · intro y p z hy; exact hQ.qsid y p z (hp.mem _ hy)

theorem wait_core {s : St} (h : Core s) {t t0 : Th} (ht : t0 ∈ s.ths) (hu : s.cur = some t0.uid) (hc : t0.cond = none)
    (e1 : t.uid = t0.uid) (e2 : t.pid = t0.pid) (e3 : t.tid = t0.tid) (trig : Trig) (timeout : Option Nat) (held : Bool)
    (hto : ∀ x, timeout = some x → s.now ≤ x) : Core (s.wait t trig timeout held) := by
  obtain ⟨hI, hC, hQ, hN⟩ := h
  have hl := hI.lt t0 ht
  have hon : owned (s.wait t trig timeout held) s.nc = true := by
    refine mem_owned.2 ⟨{ t0 with cond := some s.nc }, ?_, rfl⟩
    simp only [wait_ths, List.mem_map]
    exact ⟨t0, ht, by rw [if_pos e1.symm]⟩
  have ho : ∀ d, d ≠ s.nc → owned (s.wait t trig timeout held) d = owned s d := by
    intro d hd
    refine owned_ext ⟨by grind, ?_⟩
    rintro ⟨t', h1, h2⟩
    refine ⟨t', ?_, h2⟩
    simp only [wait_ths, List.mem_map]
    exact ⟨t', h1, by grind [→ hI.uniq]⟩
  have hwk : ∀ d, wakes (s.wait t trig timeout held).queue d = wakes s.queue d := by
    intro d
    rw [wait_queue]
    cases timeout with
    | none => rfl
    | some x => simp [wakes_snoc]
  have hf := hC.fresh s.nc (Nat.le_refl _)
  refine ⟨⟨?_, ?_, ?_, ?_, ?_, ?_⟩, ?_, ?_, ⟨nd_map hN _ (fun x => by split <;> rfl)⟩⟩
  · grind [→ hI.uniq]
  · grind [→ hI.lt]
  · grind [→ hI.tids]
  · grind [→ hI.lead]
  · grind [→ hI.tidOf]
  · grind [→ hI.cur]
  · constructor
    · intro t' d ht' hd
      simp only [wait_ths, List.mem_map] at ht'
      obtain ⟨a, ha, rfl⟩ := ht'
      by_cases hx : a.uid = t.uid
      · rw [if_pos hx] at hd ⊢
        simp at hd
        subst hd
        have := hI.uniq a t0 ha ht (hx.trans e1)
        subst this
        simp [newCond, e1, e2]
      · rw [if_neg hx] at hd ⊢
        have := hC.own a d ha hd
        have hne : d ≠ s.nc := by omega
        simp [hne]
        exact ⟨by omega, this.2⟩
    · intro t' d ht' hd _
      simp only [wait_ths, List.mem_map] at ht'
      obtain ⟨a, ha, rfl⟩ := ht'
      by_cases hx : a.uid = t.uid
      · rw [if_pos hx] at hd ⊢
        simp at hd
        subst hd
        have := hI.uniq a t0 ha ht (hx.trans e1)
        subst this
        simp [newCond, e3]
      · rw [if_neg hx] at hd ⊢
        have := hC.own a d ha hd
        have hne : d ≠ s.nc := by omega
        have := hC.wait a d ha hd (by grind)
        simpa [hne] using this
    · grind
    · intro d hd
      rw [← mem_owned]
      by_cases hx : d = s.nc
      · subst hx; exact hon
      · rw [ho d hx, mem_owned]
        exact hC.lis d (by simpa [hx] using hd)
    · intro d hd
      by_cases hx : d = s.nc
      · subst hx; simp [newCond]
      · simp only [wait_conds, if_neg hx] at hd ⊢; exact hC.tim d hd
    · intro d
      by_cases hx : d = s.nc
      · subst hx
        rw [hon]
        cases timeout <;> simp [newCond]
      · rw [ho d hx]
        simp only [wait_conds, if_neg hx]
        exact hC.refs d
    · intro d hd
      by_cases hx : d = s.nc
      · subst hx
        simp [newCond]
      · simp only [wait_conds, if_neg hx]
        exact hC.freed d (by simp at hd; omega)
    · intro d hd
      simp at hd
      have hx : d ≠ s.nc := by omega
      simp only [wait_conds, if_neg hx]
      exact hC.fresh d (by omega)
    · intro d
      rw [hwk]
      have := hC.wk d
      by_cases hx : d = s.nc
      · subst hx
        simp [newCond]
        rw [this, hf]; rfl
      · simp only [wait_conds, if_neg hx]
        exact this
    · intro d hd hq
      by_cases hx : d = s.nc
      · subst hx
        rw [hon] at hd; cases hd
      · rw [ho d hx] at hd
        simp only [wait_conds, if_neg hx] at hq ⊢
        exact hC.orph d hd hq
    · intro d t' hd hcut ht' hp htid
      by_cases hx : d = s.nc
      · subst hx
        simp [newCond] at hcut
      · simp only [wait_conds, if_neg hx] at hcut hp htid
        simp only [wait_ths, List.mem_map] at ht'
        obtain ⟨a, ha, rfl⟩ := ht'
        have := hC.gone d a (by simp at hd; omega) hcut ha
        grind
    · intro d hd
      by_cases hx : d = s.nc
      · subst hx
        simp [newCond, e2, e3]; omega
      · simp only [wait_conds, if_neg hx]
        exact hC.clt d (by simp at hd; omega)
  · constructor
    · intro a ha
      cases timeout with
      | none => exact hQ.qge a ha
      | some x =>
        simp only [wait_queue, List.mem_append] at ha
        rcases ha with ha | ha
        · exact hQ.qge a ha
        · simp at ha; subst ha; exact hto x rfl
    · intro a ha hn
      cases timeout with
      | none => exact hQ.qeq a ha hn
      | some x =>
        simp only [wait_queue, List.mem_append] at ha
        rcases ha with ha | ha
        · exact hQ.qeq a ha hn
        · simp at ha; subst ha; exact absurd rfl (hn _)
    · intro y d hy
      have h1 : (y, Task.timer d) ∈ s.queue ∨ (timeout = some y ∧ d = s.nc) := by
        cases timeout with
        | none => exact Or.inl hy
        | some x =>
          simp only [wait_queue, List.mem_append] at hy
          rcases hy with hy | hy
          · exact Or.inl hy
          · simp at hy; exact Or.inr ⟨by rw [hy.1], hy.2⟩
      rcases h1 with h1 | ⟨h1, rfl⟩
      · have := hQ.qtim y d h1
        have hx : d ≠ s.nc := by omega
        simp only [wait_conds, if_neg hx]
        exact ⟨by simp; omega, this.2⟩
      · simp [newCond, h1]
    · intro y p z t' hy ht' hp htid
      have h1 : (y, Task.start p z) ∈ s.queue := by
        cases timeout with
        | none => exact hy
        | some x => simpa using hy
      simp only [wait_ths, List.mem_map] at ht'
      obtain ⟨a, ha, rfl⟩ := ht'
      have := hQ.qstart y p z a h1 ha
      grind
    · intro y p z t' hy ht' hp htid
      have h1 : (y, Task.start p z) ∈ s.queue := by
        cases timeout with
        | none => exact hy
        | some x => simpa using hy
      simp only [wait_ths, List.mem_map] at ht'
      obtain ⟨a, ha, rfl⟩ := ht'
      have := hQ.qlead y p z a h1 ha
      grind
    · intro p y
      have := hQ.qone p y
      cases timeout with
      | none => exact this
      | some x => simpa [List.countP_append] using this
    · intro y p z d hy hd hpp htid
      have h1 : (y, Task.start p z) ∈ s.queue := by
        cases timeout with
        | none => exact hy
        | some x => simpa using hy
      by_cases hx : d = s.nc
      · subst hx
        simp [newCond] at hpp htid
        exact (hQ.qstart y p z t0 h1 ht (by omega) (by omega)).2 hu
      · simp only [wait_conds, if_neg hx] at hpp htid
        exact hQ.qvirg y p z d h1 (by simp at hd; omega) hpp htid
    · intro y p z hy
      have h1 : (y, Task.start p z) ∈ s.queue := by
        cases timeout with
        | none => exact hy
        | some x => simpa using hy
      exact hQ.qsid y p z h1

theorem addTh_core {s : St} (h : Core s) (p : Nat) (t : Th)
    (hp : p = s.next ∨ ∃ t0 ∈ s.ths, s.cur = some t0.uid ∧ t0.pid = p) : Core (s.addTh p t) := by
  have ho : ∀ d, owned (s.addTh p t) d = owned s d := by
    intro d
    simp [owned]
  obtain ⟨hI, hC, hQ, hN⟩ := h
  have hcur : s.cur ≠ some s.next := by
    intro hx
    obtain ⟨t', h1, h2⟩ := hI.cur _ hx
    have := hI.lt t' h1
    omega
  refine ⟨⟨?_, ?_, ?_, ?_, ?_, ?_⟩, ?_, ?_, ⟨by
    simp only [addTh_ths, List.map_append, List.map_cons, List.map_nil]
    refine List.nodup_append.2 ⟨hN.nd, by simp, ?_⟩
    intro a ha b hb e
    simp at hb
    obtain ⟨t0, h1, h2⟩ := List.mem_map.1 ha
    have := (hI.lt t0 h1).1
    omega⟩⟩
  · grind [→ hI.uniq, → hI.lt]
  · grind [→ hI.lt]
  · grind [→ hI.tids, → hI.lt]
  · grind [→ hI.lead, → hI.lt]
  · grind [→ hI.tidOf]
  · grind [→ hI.cur]
  · constructor
    · grind [→ hC.own]
    · grind [→ hC.wait]
    · grind [→ hC.runs]
    · intro d hd
      rw [← mem_owned, ho, mem_owned]
      exact hC.lis d hd
    · exact hC.tim
    · intro d; rw [ho]; exact hC.refs d
    · exact hC.freed
    · exact hC.fresh
    · intro d
      rw [addTh_queue, wakes_snoc]
      simpa using hC.wk d
    · intro d; rw [ho]; exact hC.orph d
    · intro d t' hd hcut ht' hpp htid
      have hl := hC.clt d hd
      have := hC.gone d t' hd hcut
      simp only [addTh_ths, List.mem_append, List.mem_singleton, addTh_conds] at ht' hpp htid
      grind
    · grind [→ hC.clt]
  · constructor
    · grind [→ hQ.qge]
    · grind [→ hQ.qeq]
    · grind [→ hQ.qtim]
    · intro y p' z t' hy ht' hpp htid
      simp only [addTh_ths, List.mem_append, List.mem_singleton] at ht'
      simp only [addTh_queue, List.mem_append, List.mem_singleton] at hy
      rcases ht' with ht' | rfl
      · rcases hy with hy | hy
        · exact hQ.qstart y p' z t' hy ht' hpp htid
        · have := hI.lt t' ht'
          simp at hy
          omega
      · exact ⟨rfl, hcur⟩
    · intro y p' z t' hy ht' hpp htid
      simp only [addTh_ths, List.mem_append, List.mem_singleton] at ht'
      simp only [addTh_queue, List.mem_append, List.mem_singleton] at hy
      rcases ht' with ht' | rfl
      · rcases hy with hy | hy
        · exact hQ.qlead y p' z t' hy ht' hpp htid
        · have := hI.lt t' ht'
          simp at hy
          omega
      · simp at hpp ⊢
        rcases hy with hy | hy
        · exfalso
          have hid := hQ.qsid y p' z hy
          rcases hp with hp | ⟨t0, h0, h1, h2⟩
          · omega
          · have h3 := hQ.qlead y p' z t0 hy h0 (h2.trans hpp) htid
            have h4 := hQ.qstart y p' z t0 hy h0 (h2.trans hpp) h3
            exact h4.2 h1
        · simp at hy
          exact hy.2.2.symm
    · intro p' y
      have := hQ.qone p' y
      simp only [addTh_queue, List.countP_append, List.countP_cons, List.countP_nil]
      by_cases hx : (Task.start p s.next) = .start p' y
      · cases hx
        have : List.countP (fun q => decide (q.snd = Task.start p s.next)) s.queue = 0 := by
          rw [List.countP_eq_zero]
          rintro ⟨y, k⟩ hy hk
          simp at hk
          subst hk
          have := hQ.qsid y p s.next hy
          omega
        rw [this]
        simp
      · simp [hx]; exact this
    · intro y p' z d hy hd hpp htid
      simp only [addTh_queue, List.mem_append, List.mem_singleton] at hy
      rcases hy with hy | hy
      · exact hQ.qvirg y p' z d hy hd hpp htid
      · have := hC.clt d hd
        simp at hy htid
        omega
    · intro y p' z hy
      simp only [addTh_queue, List.mem_append, List.mem_singleton] at hy
      rcases hy with hy | hy
      · have := hQ.qsid y p' z hy
        simp; omega
      · simp at hy
        have : p < s.next + 1 := by
          rcases hp with hp | ⟨t0, h0, _, h2⟩
          · omega
          · have := hI.lt t0 h0; omega
        simp; omega

theorem execSt_core {s : St} (h : Core s) {t : Th} {c p : Nat} (ht : t ∈ s.ths) (hn : s.cur = none) (hc : t.cond = some c)
    (hp : t.pid = p) (hal : ∀ t' ∈ s.ths, t'.pid = p → t' = t) : Core (execSt s c t.uid p) := by
  obtain ⟨hI, hC, hQ, hN⟩ := h
  have h1 := hC.own t c ht hc
  have h2 := hC.wait t c ht hc (by grind)
  have hoc : owned s c = true := mem_owned.2 ⟨t, ht, hc⟩
  have ho : ∀ d, owned (execSt s c t.uid p) d = owned s d := by
    intro d
    simp only [owned, execSt_ths, List.any_map]
    congr 1
    funext a
    simp only [Function.comp]
    split <;> rfl
  have hm : ∀ a, a ∈ (execSt s c t.uid p).ths ↔ (a ∈ s.ths ∧ a.uid ≠ t.uid) ∨ a = { t with tid := p } := by
    intro a
    simp only [execSt_ths, List.mem_map]
    constructor
    · rintro ⟨b, hb, rfl⟩
      by_cases hx : b.uid = t.uid
      · have := hI.uniq b t hb ht hx
        subst this
        simp
      · simp [hx, hb]
    · rintro (⟨ha, hx⟩ | rfl)
      · exact ⟨a, ha, by rw [if_neg hx]⟩
      · exact ⟨t, ht, by simp⟩
  have hlt := hI.lt t ht
  have hnp : ∀ t', t' ∈ s.ths → t'.uid ≠ t.uid → t'.pid ≠ p ∧ t'.tid ≠ p := by
    intro t' h3 h4
    have h5 : t'.pid ≠ p := fun e => h4 (by rw [hal t' h3 e])
    refine ⟨h5, ?_⟩
    intro e
    rcases hI.tidOf t' h3 with h6 | h6
    · have := hI.lead t' t h3 ht (by omega)
      omega
    · omega
  refine ⟨⟨?_, ?_, ?_, ?_, ?_, ?_⟩, ?_, ?_, ⟨nd_map hN _ (fun x => by split <;> rfl)⟩⟩
  · intro a b ha hb
    rw [hm] at ha hb
    grind [→ hI.uniq]
  · intro a ha
    rw [hm] at ha
    grind [→ hI.lt]
  · intro a b ha hb
    rw [hm] at ha hb
    grind [→ hI.tids]
  · intro a b ha hb
    rw [hm] at ha hb
    grind [→ hI.lead]
  · intro a ha
    rw [hm] at ha
    grind [→ hI.tidOf]
  · intro u hu
    refine ⟨{ t with tid := p }, (hm _).2 (Or.inr rfl), ?_⟩
    simpa using hu
  · constructor
    · intro a d ha
      rw [hm] at ha
      grind [→ hC.own]
    · intro a d ha
      rw [hm] at ha
      grind [→ hC.wait, → hC.own]
    · intro a d ha
      rw [hm] at ha
      grind [→ hI.uniq]
    · intro d hd
      rw [← mem_owned, ho, mem_owned]
      exact hC.lis d (by grind)
    · grind [→ hC.tim]
    · intro d
      have := hC.refs d
      rw [ho]
      by_cases hd : d = c
      · subst hd
        simp [hoc] at this ⊢
        omega
      · simp [hd, this]
    · intro d hd
      have := hC.freed d hd
      have hr := hC.refs d
      by_cases hd : d = c
      · subst hd
        simp [hoc] at this hr ⊢
        rw [this]
        omega
      · simp [hd, this]
    · grind [→ hC.fresh]
    · intro d
      have := hC.wk d
      by_cases hd : d = c
      · subst hd; simp [this]
      · simp [hd, this]
    · intro d; rw [ho]; grind [→ hC.orph]
    · intro d a hd hcut ha hpp htid
      rw [hm] at ha
      simp only [execSt_execd, List.mem_cons]
      by_cases hx : d = c
      · subst hx; left; simp at hpp; omega
      · simp only [execSt_conds, if_neg hx] at hcut hpp htid
        rcases ha with ha | rfl
        · exact Or.inr (hC.gone d a hd hcut ha.1 hpp htid)
        · exact Or.inl hp
    · grind [→ hC.clt]
  · constructor
    · exact hQ.qge
    · exact hQ.qeq
    · grind [→ hQ.qtim]
    · intro y p' z a hy ha hpp htid
      have hy' : (y, Task.start p' z) ∈ s.queue := hy
      rw [hm] at ha
      rcases ha with ha | rfl
      · have := hQ.qstart y p' z a hy ha.1 hpp htid
        exact ⟨this.1, by simp; exact fun e => ha.2 e.symm⟩
      · exfalso
        simp at hpp htid
        have h3 := hQ.qlead y p' z t hy' ht hpp (by omega)
        have h4 := hQ.qstart y p' z t hy' ht hpp (by omega)
        rw [hc] at h4; cases h4.1
    · intro y p' z a hy ha hpp htid
      rw [hm] at ha
      rcases ha with ha | rfl
      · exact hQ.qlead y p' z a hy ha.1 hpp htid
      · simp at hpp ⊢; omega
    · exact hQ.qone
    · intro x p y d; have := hQ.qvirg x p y d; grind
    · exact hQ.qsid

theorem pushSt_core {s : St} (h : Core s) (p y : Nat) : Core (pushSt s p y) := by
  obtain ⟨hI, hC, hQ, hN⟩ := h
  refine ⟨⟨hI.uniq, hI.lt, hI.tids, hI.lead, hI.tidOf, hI.cur⟩, ?_, ?_, ⟨hN.nd⟩⟩
  · exact ⟨hC.own, hC.wait, hC.runs, hC.lis, hC.tim, hC.refs, hC.freed, hC.fresh,
      fun d => by rw [pushSt_queue, wakes_snoc]; simpa using hC.wk d, hC.orph, hC.gone, hC.clt⟩
  · constructor
    · grind [→ hQ.qge]
    · grind [→ hQ.qeq]
    · grind [→ hQ.qtim]
    · grind [→ hQ.qstart]
    · grind [→ hQ.qlead]
    · intro p' y'
      simpa [List.countP_append] using hQ.qone p' y'
    · intro x p y d; have := hQ.qvirg x p y d; grind
    · grind [→ hQ.qsid]

/-- The change touches signals only. -/
def SigOnly (f : Th → Th) : Prop := ∀ t, (f t).uid = t.uid ∧ (f t).pid = t.pid ∧ (f t).tid = t.tid ∧ (f t).cond = t.cond

theorem sigSt_core {s : St} (h : Core s) {f : Th → Th} (hf : SigOnly f) (pp : List (Nat × Nat)) : Core (sigSt s f pp) := by
  obtain ⟨hI, hC, hQ, hN⟩ := h
  have ho : ∀ d, owned (sigSt s f pp) d = owned s d := by
    intro d
    simp only [owned, sigSt_ths, List.any_map]
    congr 1
    funext a
    simp only [Function.comp, (hf a).2.2.2]
  have hm : ∀ a, a ∈ (sigSt s f pp).ths → ∃ b, b ∈ s.ths ∧ a = f b ∧ a.uid = b.uid ∧ a.pid = b.pid ∧ a.tid = b.tid ∧
      a.cond = b.cond := by
    intro a ha
    simp only [sigSt_ths, List.mem_map] at ha
    obtain ⟨b, hb, rfl⟩ := ha
    exact ⟨b, hb, rfl, hf b⟩
  refine ⟨⟨?_, ?_, ?_, ?_, ?_, ?_⟩, ?_, ?_, ⟨nd_map hN _ (fun x => (hf x).1)⟩⟩
  · intro a b ha hb
    have := hm a ha
    have := hm b hb
    grind [→ hI.uniq]
  · grind [→ hI.lt]
  · intro a b ha hb
    have := hm a ha
    have := hm b hb
    grind [→ hI.tids]
  · intro a b ha hb
    have := hm a ha
    have := hm b hb
    grind [→ hI.lead]
  · grind [→ hI.tidOf]
  · intro u hu
    obtain ⟨t, ht, h2⟩ := hI.cur u hu
    refine ⟨f t, ?_, (hf t).1.trans h2⟩
    simp only [sigSt_ths, List.mem_map]
    exact ⟨t, ht, rfl⟩
  · constructor
    · grind [→ hC.own]
    · grind [→ hC.wait]
    · grind [→ hC.runs]
    · intro d hd
      rw [← mem_owned, ho, mem_owned]
      exact hC.lis d hd
    · exact hC.tim
    · intro d; rw [ho]; exact hC.refs d
    · exact hC.freed
    · exact hC.fresh
    · exact hC.wk
    · intro d; rw [ho]; exact hC.orph d
    · grind [→ hC.gone]
    · exact hC.clt
  · constructor
    · exact hQ.qge
    · exact hQ.qeq
    · exact hQ.qtim
    · intro x p y a hq ha
      obtain ⟨b, hb, hx⟩ := hm a ha
      have := hQ.qstart x p y b hq hb
      grind
    · intro x p y a hq ha
      obtain ⟨b, hb, hx⟩ := hm a ha
      have := hQ.qlead x p y b hq hb
      grind
    · exact hQ.qone
    · intro x p y d; have := hQ.qvirg x p y d; grind
    · exact hQ.qsid

end Shadow.Wake
