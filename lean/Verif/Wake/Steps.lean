import Verif.Wake.RestSteps

/-!
Every step of the model keeps the invariant, and which steps can fail (C67).
-/

namespace Shadow.Wake

open Shadow.Base

theorem lookup_some {s : St} {p y : Nat} {t : Th} (h : s.lookup p y = some t) : t ∈ s.ths ∧ t.pid = p ∧ t.tid = y := by
  have h1 := List.find?_some h
  simp at h1
  exact ⟨List.mem_of_find?_eq_some h, h1⟩

theorem lookup_none {s : St} {p y : Nat} (h : s.lookup p y = none) : ∀ t ∈ s.ths, t.pid = p → t.tid ≠ y := by
  intro t ht hp hy
  have := List.find?_eq_none.1 h t ht
  simp [hp, hy] at this

theorem lookup_mem {s : St} (h : Ids s) {t : Th} (ht : t ∈ s.ths) : s.lookup t.pid t.tid = some t := by
  cases hl : s.lookup t.pid t.tid with
  | none => exact absurd rfl (lookup_none hl t ht rfl)
  | some a =>
    obtain ⟨h1, h2, h3⟩ := lookup_some hl
    rw [h.tids a t h1 ht h3]

theorem lookupTid_mem {s : St} (h : Ids s) {t : Th} (ht : t ∈ s.ths) : s.lookupTid t.tid = some t := by
  cases hl : s.lookupTid t.tid with
  | none =>
    have := List.find?_eq_none.1 hl t ht
    simp at this
  | some a =>
    have h1 := List.find?_some hl
    simp at h1
    rw [h.tids a t (List.mem_of_find?_eq_some hl) ht h1]

theorem byUid_some {s : St} {u : Nat} {t : Th} (h : s.byUid u = some t) : t ∈ s.ths ∧ t.uid = u := by
  have h1 := List.find?_some h
  simp at h1
  exact ⟨List.mem_of_find?_eq_some h, h1⟩

theorem me_some {s : St} {t : Th} (h : s.me = some t) : t ∈ s.ths ∧ s.cur = some t.uid := by
  unfold St.me at h
  split at h
  · cases h
  · next u hu =>
    obtain ⟨h1, h2⟩ := byUid_some h
    exact ⟨h1, by rw [hu, h2]⟩

theorem me_none {s : St} (hI : Ids s) (h : s.me = none) : s.cur = none := by
  unfold St.me at h
  split at h
  · assumption
  · next u hu =>
    obtain ⟨t, h1, h2⟩ := hI.cur u hu
    have := List.find?_eq_none.1 h t h1
    simp [h2] at this

/-- A condition with an owner is there and has the owner's reference beside those of timer and listener. -/
theorem owned_refs {s : St} (h : Cds s) {t : Th} {c : Nat} (ht : t ∈ s.ths) (hc : t.cond = some c) :
    (s.conds c).freed = false ∧ (s.conds c).timer.toNat + (s.conds c).listening.toNat < (s.conds c).refs := by
  have h1 : owned s c = true := mem_owned.2 ⟨t, ht, hc⟩
  have h2 := h.refs c
  rw [h1] at h2
  simp at h2
  have h3 := h.freed c (h.own t c ht hc).1
  refine ⟨?_, by omega⟩
  cases hf : (s.conds c).freed
  · rfl
  · have := h3.1 hf
    omega

theorem run_none {s : St} {t : Th} (why : Why) (hc : t.cond = none) : s.run t why = .ok (goSt s t.uid why) := by
  simp [St.run, hc, goSt]

theorem run_some {s : St} (h : Cds s) {t : Th} {c : Nat} (why : Why) (ht : t ∈ s.ths) (hc : t.cond = some c) :
    s.run t why = .ok (runSt s c t.uid why) := by
  obtain ⟨h1, h2⟩ := owned_refs h ht hc
  simp only [St.run, hc]
  by_cases hw : why = .wake c
  · simp only [hw, if_true]
    rw [cancel_eq (by exact h1) (by exact h2)]
    simp [cancelSt, runSt, St.upd]
  · simp only [if_neg hw]
    rw [cancel_eq (by simpa using h1) (by simpa using h2)]
    simp [cancelSt, runSt, St.upd, hw]
    funext i
    split <;> simp

theorem dropTh_none {s : St} {t : Th} (hc : t.cond = none) : s.dropTh t = .ok (leaveSt s t.uid) := by
  simp [St.dropTh, hc, leaveSt]

theorem dropTh_some {s : St} (h : Cds s) {t : Th} {c : Nat} (ht : t ∈ s.ths) (hc : t.cond = some c) :
    s.dropTh t = .ok (dropSt s c t.uid) := by
  obtain ⟨h1, h2⟩ := owned_refs h ht hc
  simp only [St.dropTh, hc]
  rw [cancel_eq (by simpa using h1) (by simpa using h2), R.bind_ok, unref_eq]
  · simp only [cancelSt, unrefSt, dropSt, St.upd]
    congr 2
    funext i
    split <;> simp
  · simp [cancelSt, St.upd, h1]
  · simp [cancelSt, St.upd]; omega

theorem dropOld_none {s : St} {t : Th} (hc : t.cond = none) : s.dropOld t = .ok s := by
  simp [St.dropOld, hc]

theorem dropOld_some {s : St} (h : Cds s) {t : Th} {c : Nat} (ht : t ∈ s.ths) (hc : t.cond = some c) :
    s.dropOld t = .ok (oldSt s c t.uid) := by
  obtain ⟨h1, h2⟩ := owned_refs h ht hc
  simp only [St.dropOld, hc]
  rw [unref_eq (by simpa [St.updTh] using h1) (by simp [St.updTh]; omega)]
  simp [unrefSt, oldSt, St.upd, St.updTh]

theorem wake_sched {s : St} (h : Cds s) {x c : Nat} (hq : (x, Task.wake c) ∈ s.queue) :
    (s.conds c).sched = true ∧ c < s.nc ∧ (s.conds c).freed = false ∧ (s.conds c).refs ≠ 0 := by
  have h1 : 0 < wakes s.queue c := List.countP_pos_iff.2 ⟨_, hq, by simp⟩
  rw [h.wk c] at h1
  have hs : (s.conds c).sched = true := by
    cases hx : (s.conds c).sched <;> simp [hx] at h1 ⊢
  have hn : c < s.nc := by
    apply Classical.byContradiction
    intro e
    have := h.fresh c (by omega)
    rw [this] at hs
    simp at hs
  have h2 := h.refs c
  rw [hs] at h2
  simp at h2
  refine ⟨hs, hn, ?_, by omega⟩
  cases hf : (s.conds c).freed
  · rfl
  · have := (h.freed c hn).1 hf
    omega

/-- The thread that a wakeup finds is the one that waits on the condition, or the wait was cut. -/
theorem found {s : St} (hI : Ids s) (h : Cds s) (hn : s.cur = none) {c : Nat} {t : Th} (hs : (s.conds c).sched = true)
    (ht : t ∈ s.ths) (h2 : t.tid = (s.conds c).tid) : t.cond = some c ∨ (owned s c = false ∧ (s.conds c).cut = true) := by
  cases ho : owned s c
  · exact Or.inr ⟨rfl, h.orph c ho hs⟩
  · obtain ⟨a, a1, a2⟩ := mem_owned.1 ho
    have := h.wait a c a1 a2 (by rw [hn]; simp)
    rw [hI.tids t a ht a1 (by rw [h2, this.1])]
    exact Or.inl a2

theorem not_satisfied {s : St} {k : Cond} {t : Th} (h : s.satisfied k t = false) :
    (∀ x, k.timeout = some x → s.now < x) ∧ s.statusIsValid k = false ∧ s.pending t = false := by
  simp only [St.satisfied, Bool.or_eq_false_iff] at h
  refine ⟨?_, h.1.2, h.2⟩
  intro x hx
  have := h.1.1
  rw [hx] at this
  simpa using this

/-- What a wakeup does. -/
theorem trigger_cases {s : St} (hI : Ids s) (h : Cds s) {q x c} (hp : Pop s q x (.wake c)) :
    (∃ t ∈ s.ths, t.pid = (s.conds c).pid ∧ t.tid = (s.conds c).tid ∧
      (popSt s q x).satisfied (s.conds c) t = true ∧ (popSt s q x).trigger c =
        (oddSt (relSt s q x c) (decide (t.cond ≠ some c))).run t (.wake c)) ∨
    ((∀ t ∈ s.ths, t.pid = (s.conds c).pid → t.tid = (s.conds c).tid →
      (popSt s q x).satisfied (s.conds c) t = false) ∧ (popSt s q x).trigger c = .ok (relSt s q x c)) := by
  obtain ⟨h1, h2, h3, h4⟩ := wake_sched h hp.hd
  have hu : ((popSt s q x).upd c fun k => { k with sched := false }).unref c = .ok (relSt s q x c) := by
    rw [unref_eq (by simpa using h3) (by simpa using h4)]
    simp [unrefSt, relSt, popSt, St.upd]
    funext i
    split <;> simp
  have hlk : ((popSt s q x).upd c fun k => { k with sched := false }).lookup (s.conds c).pid (s.conds c).tid =
    s.lookup (s.conds c).pid (s.conds c).tid := rfl
  have hsat : ∀ t, ((popSt s q x).upd c fun k => { k with sched := false }).satisfied { s.conds c with sched := false } t =
    (popSt s q x).satisfied (s.conds c) t := fun _ => rfl
  have hc : ((popSt s q x).upd c fun k => { k with sched := false }).conds c = { s.conds c with sched := false } := by simp
  unfold St.trigger
  rw [if_neg (by simpa using h3)]
  simp only [hc, hlk]
  cases hl : s.lookup (s.conds c).pid (s.conds c).tid with
  | none =>
    right
    exact ⟨fun t ht hp hy => absurd hy (lookup_none hl t ht hp), hu⟩
  | some t =>
    obtain ⟨e1, e2, e3⟩ := lookup_some hl
    cases hs : (popSt s q x).satisfied (s.conds c) t
    · right
      refine ⟨?_, ?_⟩
      · intro a a1 a2 a3
        rw [hI.tids a t a1 e1 (by rw [a3, e3])]
        exact hs
      · simp only [hsat, hs]
        exact hu
    · left
      refine ⟨t, e1, e2, e3, hs, ?_⟩
      simp only [hsat, hs, if_true, hu, R.bind_ok]
      rfl

/-- A thread without condition that does not run has its first run before it. -/
theorem virgin {s : St} (hR : Rest s {}) (hQ : Que s) (hn : s.cur = none) {c : Nat} {t : Th} (hc : c < s.nc) (ht : t ∈ s.ths)
    (h1 : t.pid = (s.conds c).pid) (h2 : t.tid = (s.conds c).tid) : t.cond ≠ none := by
  intro e
  obtain ⟨x, hx⟩ := hR.uns t ht (by simp) e (by rw [hn]; simp)
  exact hQ.qvirg x _ _ c hx hc h1.symm h2.symm

theorem trigger_inv {s : St} (hC : Core s) (hR : Rest s {}) (hn : s.cur = none) {q x c} (hp : Pop s q x (.wake c)) :
    ∃ s', (popSt s q x).trigger c = .ok s' ∧ Core s' ∧ Rest s' {} := by
  obtain ⟨h1, h2, h3, h4⟩ := wake_sched hC.toCds hp.hd
  have hCr := relSt_core hC hp
  have hRr := relSt_rest hR hC.toCds hC.toQue hp
  have hx := hC.qge _ hp.hd
  have hx' := hC.qeq _ hp.hd (by simp)
  have hxe : x = s.now := by simp at hx hx'; omega
  -- nothing is left of a condition whose wakeup did not find it waiting and satisfied
  have hclose : (∀ t ∈ s.ths, t.cond = some c → (popSt s q x).satisfied (s.conds c) t = false) →
      Rest (relSt s q x c) {} := by
    intro hs
    have h5 := hRr.fixTm (by
      rintro d y rfl hl hto
      have hl' : (s.conds d).listening = true := by simpa using hl
      have hto' : (s.conds d).timeout = some y := by simpa using hto
      have h6 := hR.dl d y (by simp) hl' hto'
      obtain ⟨t, t1, t2⟩ := hC.lis d hl'
      have h7 := (not_satisfied (hs t t1 t2)).1 y hto'
      simp at h7
      simp only [relSt_now, relSt_queue, relSt_conds, if_true]
      refine ⟨by omega, fun ha => hp.back _ (h6.2.1 ha) (by simp), fun ha => ?_⟩
      have := (h6.2.2 ha).1
      omega)
    have h6 := h5.fixCnd hCr.toCds (by simpa using hn) (by
      rintro d t rfl ht hc
      have h7 := not_satisfied (hs t (by simpa using ht) hc)
      refine ⟨?_, h7.2.2⟩
      rw [← h7.2.1]
      simp only [relSt_conds, if_true]
      rfl)
    exact h6.mono (by simp) (by simp) (by simp) (by simp) (by simp)
  rcases trigger_cases hC.toIds hC.toCds hp with ⟨t, t1, t2, t3, t4, t5⟩ | ⟨hs, e⟩
  · have hv := virgin hR hC.toQue hn h2 t1 t2 t3
    obtain ⟨d, hd⟩ := Option.ne_none_iff_exists'.1 hv
    rw [t5, run_some (oddSt_core hCr _).toCds _ (by exact t1) hd]
    refine ⟨_, rfl, ?_, ?_⟩
    · apply runSt_core (oddSt_core hCr _) (by exact t1) (by exact hn) hd
      by_cases hdc : d = c
      · left
        subst hdc
        exact ⟨rfl, by simp [oddSt]⟩
      · right
        refine ⟨by simpa using Ne.symm hdc, ?_⟩
        rcases found hC.toIds hC.toCds hn h1 t1 t3 with e | ⟨e1, e2⟩
        · rw [hd] at e
          cases e
          exact absurd rfl hdc
        · exact hC.gone c t h2 e2 t1 t2 t3
    · have hlg := hR.lg c
      have hl0 : s.log.countP (fun e => e.2 = .wake c) = 0 := by
        apply Classical.byContradiction
        intro e
        have := (hlg.2 (by omega)).2.1
        rw [h1] at this
        cases this
      by_cases hdc : d = c
      · subst hdc
        refine (runSt_rest (oddSt_rest hRr _) (oddSt_core hCr _).toIds (oddSt_core hCr _).toCds (by exact t1) (by exact hn) hd _ ?_ ?_).mono
          ?_ ?_ ?_ ?_ ?_
        · intro _ y p z hq ⟨f1, f2⟩
          have hq' : (y, Task.exec p z) ∈ q := hq
          have hq2 := hp.mem _ hq'
          have hy := hC.qge _ hq2
          have hy' := hC.qeq _ hq2 (by simp)
          simp at hy hy'
          have hcut := hp.ord _ hR.ord _ hq' (by simp; omega) d p z rfl rfl (t2.symm.trans f1) (t3.symm.trans f2)
          have := (hC.wait t d t1 hd (by rw [hn]; simp)).2.2.1
          rw [hcut] at this
          cases this
        · intro d' e
          cases e
          exact ⟨by simpa [oddSt] using h2, by simp [oddSt], Or.inl rfl, by simpa [oddSt] using hl0⟩
        all_goals simp
      · have hno : owned s c = false := by
          rcases found hC.toIds hC.toCds hn h1 t1 t3 with e | ⟨e1, e2⟩
          · rw [hd] at e
            cases e
            exact absurd rfl hdc
          · exact e1
        have hno' : ∀ t ∈ s.ths, t.cond ≠ some c := by
          intro a a1 a2
          rw [mem_owned.2 ⟨a, a1, a2⟩] at hno
          cases hno
        have hRc := hclose (fun a a1 a2 => absurd a2 (hno' a a1))
        refine (runSt_rest (oddSt_rest hRc _) (oddSt_core hCr _).toIds (oddSt_core hCr _).toCds (by exact t1) (by exact hn) hd _ ?_ ?_).mono
          ?_ ?_ ?_ ?_ ?_
        · intro ho
          simp [oddSt, hd] at ho
          exact absurd ho.2 hdc
        · intro d' e
          cases e
          refine ⟨by simpa [oddSt] using h2, by simp [oddSt], Or.inr ?_, by simpa [oddSt] using hl0⟩
          cases hll : ((oddSt (relSt s q x c) (decide (t.cond ≠ some c))).conds c).listening
          · rfl
          · obtain ⟨a, a1, a2⟩ := (oddSt_core hCr (decide (t.cond ≠ some c))).lis c hll
            exact absurd a2 (hno' a a1)
        all_goals simp
  · refine ⟨_, e, hCr, hclose ?_⟩
    intro t t1 t2
    have := hC.wait t c t1 t2 (by rw [hn]; simp)
    exact hs t t1 (hC.own t c t1 t2).2.2.symm this.1.symm

theorem expire_inv {s : St} (hC : Core s) (hR : Rest s {}) {q x c} (hp : Pop s q x (.timer c)) :
    ∃ s', (popSt s q x).expire c = .ok s' ∧ Core s' ∧ Rest s' {} ∧ s'.cur = s.cur ∧ s'.log = s.log := by
  have hCp := popSt_core hC hp (by simp)
  have hRp := popSt_rest hR hC.toCds hC.toQue hp
  have ht := hC.qtim x c hp.hd
  unfold St.expire
  split
  · next hb =>
    simp at hb
    have hl := hC.tim c hb.1
    have hC1 : Core ((popSt s q x).upd c fun k => { k with armed := false }) :=
      upd_core hCp (by exact ht.1) (fun k => rfl)
    have hR1 : Rest ((popSt s q x).upd c fun k => { k with armed := false }) { tm := fun d => d = c } :=
      (disarm_rest hRp).mono (by rintro d (⟨h1, _⟩ | h1); · { cases h1; rfl }; · exact h1) (by simp)
        (by rintro u ⟨t, _, _, e⟩; cases e) (by simp) (by simp)
    obtain ⟨s', e1, e2, e3, e4, e5, e6, e7, e8, e9, e10⟩ := sched_inv hC1 hR1 (c := c) (by simpa using hl)
    refine ⟨s', e1, e2, ?_, by rw [e9]; rfl, by rw [e10]; rfl⟩
    refine (e3.fixTm ?_).mono (by simp) (by simp) (by simp) (by simp) (by simp)
    rintro d y rfl _ hto
    have ha := e8 d
    rw [ha] at hto
    simp at hto
    rw [ht.2] at hto
    cases hto
    have hfa : (s'.conds d).armed = false := by rw [ha]; simp
    have hnow : s'.now = x := by rw [e5]; rfl
    rw [hnow, hfa]
    exact ⟨Nat.le_refl _, by simp, fun _ => ⟨Nat.le_refl _, e4⟩⟩
  · next hb =>
    refine ⟨_, rfl, hCp, hRp.mono ?_ (by simp) (by rintro u ⟨t, _, _, e⟩; cases e) (by simp) (by simp), rfl, rfl⟩
    rintro d ⟨h1, h2⟩
    cases h1
    simp [h2, hR.arm c h2] at hb

theorem startTh_inv {s : St} (hC : Core s) (hR : Rest s {}) (hn : s.cur = none) {q x p y} (hp : Pop s q x (.start p y)) :
    ∃ s', (popSt s q x).startTh p y = .ok s' ∧ Core s' ∧ Rest s' {} ∧
      ((s'.cur = none ∧ s'.log = s.log) ∨ ∃ t ∈ s.ths, t.cond = none ∧ s'.cur = some t.uid ∧ s'.log = s.log ++ [(t.uid, .start)]) := by
  have hCp := popSt_core hC hp (by simp)
  have hRp := popSt_rest hR hC.toCds hC.toQue hp
  unfold St.startTh
  have hlk : (popSt s q x).lookup p y = s.lookup p y := rfl
  rw [hlk]
  cases hl : s.lookup p y with
  | none =>
    refine ⟨_, rfl, hCp, hRp.mono ?_ (by simp) ?_ (by simp) (by simp), Or.inl ⟨hn, rfl⟩⟩
    · rintro c ⟨e, _⟩
      cases e
    · rintro u ⟨t, t1, _, e⟩
      cases e
      exact absurd rfl (lookup_none hl t t1 rfl)
  | some t =>
    obtain ⟨t1, t2, t3⟩ := lookup_some hl
    have hc := (hC.qstart x p y t hp.hd t1 t2 t3).1
    simp only
    rw [run_none _ hc]
    refine ⟨_, rfl, ?_, ?_, Or.inr ⟨t, t1, hc, rfl, rfl⟩⟩
    · apply goSt_core hCp (by exact t1) (by exact hn) hc
      intro z hz
      have h1 := hC.qone p y
      have h2 := hp.cnt (fun q => q.2 = .start p y)
      simp at h2
      have h3 : 0 < q.countP (fun q => q.2 = .start p y) := List.countP_pos_iff.2 ⟨_, hz, by simp [t2, t3]⟩
      omega
    · have h1 := goSt_rest hRp hCp.toIds (t := t) (by exact t1) (by exact hn) hc
      refine
      { uns := ?_, arm := h1.arm, dl := ?_, ord := h1.ord, one := h1.one, thr := h1.thr
        eid := h1.eid, exn := h1.exn, bits := h1.bits, notif := h1.notif, nfk := h1.nfk, hld := h1.hld, tsig := ?_
        psig := h1.psig, lg := h1.lg }
      · intro a a1 _ a2 a3
        refine h1.uns a a1 ?_ a2 a3
        rintro ⟨b, b1, b2, b3⟩
        cases b3
        rw [hC.tids t b t1 b1 t3] at a3
        exact a3 (by rw [← b2]; rfl)
      · intro c z _
        refine h1.dl c z ?_
        rintro ⟨e, _⟩
        cases e
      · intro a c g _ a1 a2 a3 a4 a5
        refine h1.tsig a c g ?_ a1 a2 a3 a4 a5
        rintro ⟨b, b1, b2, b3⟩
        cases b3
        rw [hC.tids t b t1 b1 t3] at a3
        exact a3 (by rw [← b2]; rfl)

/-- Several threads of a process leave. -/
theorem dropAll_inv (p : Nat) : ∀ (L : List Th) (s : St), Core s → Rest s { pid := fun x => x = p, thr := fun x => x = p } →
    (∀ t ∈ L, t ∈ s.ths ∧ t.pid = p ∧ s.cur ≠ some t.uid) → (L.map (·.uid)).Nodup →
    ∃ s', s.dropAll L = .ok s' ∧ Core s' ∧ Rest s' { pid := fun x => x = p, thr := fun x => x = p } ∧
      s'.ths = s.ths.filter (fun x => ¬ ∃ t ∈ L, t.uid = x.uid) ∧ s'.cur = s.cur ∧ s'.log = s.log ∧ s'.queue = s.queue ∧
      s'.odd = s.odd ∧ s'.now = s.now
  | [], s, hC, hR, _, _ => ⟨s, rfl, hC, hR, (List.filter_eq_self.2 (by simp)).symm, rfl, rfl, rfl, rfl, rfl⟩
  | t :: L, s, hC, hR, hL, hd => by
    obtain ⟨t1, t2, t3⟩ := hL t (List.mem_cons_self ..)
    simp only [List.map_cons, List.nodup_cons] at hd
    have hne : ∀ a ∈ L, a.uid ≠ t.uid := by
      intro a ha e
      exact hd.1 (List.mem_map.2 ⟨a, ha, e⟩)
    have key : ∀ s1 : St, s.dropTh t = .ok s1 → Core s1 → Rest s1 { pid := fun x => x = p, thr := fun x => x = p } →
        s1.ths = s.ths.filter (fun x => x.uid ≠ t.uid) → s1.cur = s.cur → s1.log = s.log → s1.queue = s.queue →
        s1.odd = s.odd → s1.now = s.now →
        ∃ s', s.dropAll (t :: L) = .ok s' ∧ Core s' ∧ Rest s' { pid := fun x => x = p, thr := fun x => x = p } ∧
          s'.ths = s.ths.filter (fun x => ¬ ∃ a ∈ t :: L, a.uid = x.uid) ∧ s'.cur = s.cur ∧ s'.log = s.log ∧
          s'.queue = s.queue ∧ s'.odd = s.odd ∧ s'.now = s.now := by
      intro s1 e1 e2 e3 e4 e5 e6 e7 e8 e9
      obtain ⟨s', f1, f2, f3, f4, f5, f6, f7, f8, f9⟩ := dropAll_inv p L s1 e2 e3 (by
        intro a ha
        obtain ⟨a1, a2, a3⟩ := hL a (List.mem_cons_of_mem _ ha)
        exact ⟨by rw [e4]; simp [a1, hne a ha], a2, by rw [e5]; exact a3⟩) hd.2
      refine ⟨s', ?_, f2, f3, ?_, by rw [f5, e5], by rw [f6, e6], by rw [f7, e7], by rw [f8, e8], by rw [f9, e9]⟩
      · simp only [St.dropAll, e1, R.bind_ok, f1]
      · rw [f4, e4, List.filter_filter]
        apply List.filter_congr
        intro a _
        by_cases h1 : a.uid = t.uid
        · simp [h1]
        · simp [h1, Ne.symm h1]
    cases hc : t.cond with
    | none =>
      exact key _ (dropTh_none hc) (leaveSt_core hC t1 t3 hc) (leaveSt_rest hR hC.toIds t1 hc ⟨t2, t2⟩) rfl rfl rfl rfl rfl rfl
    | some c =>
      exact key _ (dropTh_some hC.toCds t1 hc) (dropSt_core hC t1 t3 hc)
        (dropSt_rest hR hC.toIds hC.toCds t1 hc ⟨t2, t2⟩) rfl rfl rfl rfl rfl rfl

theorem finishExec_inv {s : St} (hC : Core s) (hR : Rest s {}) (hn : s.cur = none) {q x p y} (hp : Pop s q x (.exec p y)) :
    (∃ s', (popSt s q x).finishExec p y = .ok s' ∧ Core s' ∧ Rest s' {} ∧ s'.now = x ∧ s'.odd = s.odd ∧
      ((s'.cur = none ∧ s'.log = s.log) ∨
        ∃ t ∈ s.ths, t.pid = p ∧ t.tid = y ∧ t.cond ≠ none ∧ s'.cur = some t.uid ∧ s'.log = s.log ++ [(t.uid, .exec)])) ∨
    ((popSt s q x).finishExec p y = .panic ∧ s.odd = true ∧ (∃ t ∈ s.ths, t.pid = p) ∧
      ∀ t ∈ s.ths, t.pid = p → t.tid ≠ y) := by
  have hCp := popSt_core hC hp (by simp)
  have hRp : Rest (popSt s q x) {} := (popSt_rest hR hC.toCds hC.toQue hp).mono
    (by rintro c ⟨e, _⟩; cases e) (by simp) (by rintro u ⟨t, _, _, e⟩; cases e) (by simp) (by simp)
  have hlk : (popSt s q x).lookup p y = s.lookup p y := rfl
  unfold St.finishExec
  split
  · next ha =>
    simp only [popSt_ths, List.any_eq_true, decide_eq_true_eq] at ha
    rw [hlk]
    cases hl : s.lookup p y with
    | none =>
      right
      refine ⟨rfl, ?_, ha, lookup_none hl⟩
      obtain ⟨a, a1, a2⟩ := ha
      cases ho : s.odd
      · obtain ⟨b, b1, b2, b3, _⟩ := hR.thr ho x p y a (by simp) hp.hd a1 a2
        exact absurd b3 (lookup_none hl b b1 b2)
      · rfl
    | some t =>
      left
      obtain ⟨t1, t2, t3⟩ := lookup_some hl
      have hcn : t.cond ≠ none := (hR.exn x p y t hp.hd t1 t2 t3).resolve_right (by rw [hn]; simp)
      obtain ⟨c, hc⟩ := Option.ne_none_iff_exists'.1 hcn
      obtain ⟨s', f1, f2, f3, f4, f5, f6, f7, f8, f9⟩ := dropAll_inv p
        ((popSt s q x).ths.filter fun x => x.pid = p && x.uid ≠ t.uid) (popSt s q x) hCp
        (hRp.mono (by simp) (by simp) (by simp) (by simp) (by simp))
        (by
          intro a ha
          simp at ha
          exact ⟨ha.1, ha.2.1, by rw [popSt_cur, hn]; simp⟩)
        (nd_filter hCp.toNd _)
      have hth : ∀ a ∈ s'.ths, a.pid = p → a = t := by
        intro a a1 a2
        rw [f4] at a1
        rw [List.mem_filter, decide_eq_true_eq, popSt_ths] at a1
        apply hC.uniq a t a1.1 t1
        apply Classical.byContradiction
        intro e
        exact a1.2 ⟨a, List.mem_filter.2 ⟨a1.1, by simp [a2, e]⟩, rfl⟩
      have ht : t ∈ s'.ths := by
        rw [f4]
        rw [List.mem_filter, decide_eq_true_eq, popSt_ths]
        refine ⟨t1, ?_⟩
        rintro ⟨a, a1, a2⟩
        rw [List.mem_filter] at a1
        simp [a2] at a1
      have hn' : s'.cur = none := by rw [f5]; exact hn
      have hone : s'.odd = false → ∀ z w, (z, Task.exec p w) ∉ s'.queue := by
        intro ho z w hz
        rw [f8] at ho
        rw [f7] at hz
        have h1 := hR.one ho p
        have h2 := hp.cnt (fun q => q.2.execOf p)
        have h4 : Task.execOf p (.exec p y) = true := by simp [Task.execOf]
        simp only [h4, if_true] at h2
        have h3 : 0 < q.countP (fun q => q.2.execOf p) := List.countP_pos_iff.2 ⟨_, hz, by simp [Task.execOf]⟩
        omega
      simp only [f1, R.bind_ok]
      have hC2 := execSt_core f2 ht hn' hc t2 hth
      have hlk2 : St.lookup { (s'.updTh t.uid fun x => { x with tid := p }) with execd := p :: (s'.updTh t.uid fun x => { x with tid := p }).execd }
          p p = some { t with tid := p } := by
        have := lookup_mem (s := execSt s' c t.uid p) hC2.toIds (t := { t with tid := p }) (by
          simp only [execSt_ths, List.mem_map]
          exact ⟨t, ht, by simp⟩)
        simpa [St.lookup, t2, St.updTh] using this
      rw [hlk2]
      simp only
      have hrun : St.run { (s'.updTh t.uid fun x => { x with tid := p }) with execd := p :: (s'.updTh t.uid fun x => { x with tid := p }).execd }
          { t with tid := p } .exec = .ok (execSt s' c t.uid p) := by
        obtain ⟨h1, h2⟩ := owned_refs f2.toCds ht hc
        simp only [St.run, hc]
        simp only [reduceCtorEq, if_false]
        rw [cancel_eq (by simpa [St.updTh] using h1) (by simpa [St.updTh] using h2)]
        simp [cancelSt, execSt, St.upd, St.updTh]
        funext i
        split <;> simp
      rw [hrun]
      refine ⟨_, rfl, hC2, ?_, f9, f8, Or.inr ⟨t, t1, t2, t3, hcn, rfl, by simp [f6]⟩⟩
      exact (execSt_rest f3 f2.toIds f2.toCds ht hn' hc t2 hth (by simp) hone).mono (by simp) (by simp) (by simp) (by simp) (by simp)
  · next ha =>
    exact Or.inl ⟨_, rfl, hCp, hRp, rfl, rfl, Or.inl ⟨hn, rfl⟩⟩

/-- The running thread drops its old condition. -/
theorem dropOld_inv {s : St} {X : Ex} (hC : Core s) (hR : Rest s X) {t : Th} (ht : t ∈ s.ths) (hu : s.cur = some t.uid) :
    ∃ s1, s.dropOld t = .ok s1 ∧ Core s1 ∧ Rest s1 X ∧ { t with cond := none } ∈ s1.ths ∧ s1.cur = s.cur ∧ s1.now = s.now ∧
      s1.objs = s.objs ∧ s1.queue = s.queue ∧ s1.odd = s.odd ∧ s1.log = s.log ∧ s1.ppend = s.ppend := by
  cases hc : t.cond with
  | none =>
    refine ⟨s, dropOld_none hc, hC, hR, ?_, rfl, rfl, rfl, rfl, rfl, rfl, rfl⟩
    have : ({ t with cond := none } : Th) = t := by rw [← hc]
    rw [this]
    exact ht
  | some c =>
    refine ⟨_, dropOld_some hC.toCds ht hc, oldSt_core hC ht hu hc, oldSt_rest hR hC.toIds hC.toCds ht hu hc, ?_, rfl, rfl, rfl, rfl,
      rfl, rfl, rfl⟩
    simp only [oldSt_ths, List.mem_map]
    exact ⟨t, ht, by simp⟩

theorem block_inv {s : St} {X : Ex} (hC : Core s) (hR : Rest s X) {t : Th} (ht : t ∈ s.ths) (hu : s.cur = some t.uid)
    (trig : Trig) (timeout : Option Nat) (held : Bool)
    (hbits : ∀ o m, trig = .file o m → s.objs o &&& m = 0) (hto : ∀ x, timeout = some x → s.now ≤ x)
    (hh : held = true → timeout.isSome = true) (hp : held = false → s.pending t = false)
    (hthr : s.odd = false → ∀ x p y, X.thr p → (x, Task.exec p y) ∈ s.queue → p = t.pid ∧ y = t.tid) :
    ∃ s', s.block t trig timeout held = .ok s' ∧ Core s' ∧ Rest s' { X with thr := fun _ => False } ∧ s'.cur = none ∧ s'.log = s.log := by
  obtain ⟨s1, f1, f2, f3, f4, f5, f6, f7, f8, f9, f10, f11⟩ := dropOld_inv hC hR ht hu
  simp only [St.block, f1, R.bind_ok]
  refine ⟨_, rfl, ?_, ?_, rfl, f10⟩
  · exact wait_core f2 f4 (by rw [f5]; exact hu) rfl rfl rfl rfl trig timeout held (by rw [f6]; exact hto)
  · refine wait_rest f3 f2.toIds f2.toCds f4 (by rw [f5]; exact hu) rfl rfl rfl trig timeout held (by rw [f6]; exact hto)
      (by rw [f7]; exact hbits) hh ?_ (by rw [f8, f9]; exact hthr)
    intro e
    have := hp e
    simpa [St.pending, f11] using this

/-- The claims of one step: it does not fail, and keeps the invariant. -/
def Good (r : R St) : Prop := ∃ s', r = .ok s' ∧ Core s' ∧ Rest s' {}

theorem exec_inv {s : St} (hC : Core s) (hR : Rest s {}) {t : Th} (ht : t ∈ s.ths) (hu : s.cur = some t.uid)
    (hp : s.pending t = false) : ∃ s', (pushSt s t.pid t.tid).block t .none none false = .ok s' ∧ Core s' ∧ Rest s' {} ∧
      s'.cur = none ∧ s'.log = s.log := by
  obtain ⟨s', f1, f2, f3, f4, f5⟩ := block_inv (pushSt_core hC t.pid t.tid) (pushSt_rest hR hC.toIds hC.toCds ht hu) ht hu .none none false
    (by simp) (by simp) (by simp) (fun _ => hp) (by
      intro ho x p y hpp hq
      simp only [pushSt_queue, List.mem_append, List.mem_singleton, Prod.mk.injEq, Task.exec.injEq] at hq
      rcases hq with hq | hq
      · simp only [pushSt_odd, Bool.or_eq_false_iff, List.any_eq_false] at ho
        have := ho.2 _ hq
        have hpp' : p = t.pid := hpp
        simp [Task.execOf, hpp'] at this
      · exact hq.2)
  exact ⟨s', f1, f2, f3.mono (by simp) (by simp) (by simp) (by simp) (by simp), f4, f5⟩

theorem quit_eq {s : St} {t : Th} : ({ s with ths := s.ths.filter fun x => x.uid ≠ t.uid, cur := none } : St) = quitSt s t.uid := rfl

theorem exit_inv {s : St} (hC : Core s) (hR : Rest s {}) {t : Th} (ht : t ∈ s.ths) (hu : s.cur = some t.uid)
    (hp : s.pending t = false) : Good (do
      let s ← s.dropOld t
      .ok { s with ths := s.ths.filter fun x => x.uid ≠ t.uid, cur := none }) := by
  obtain ⟨s1, f1, f2, f3, f4, f5, f6, f7, f8, f9, f10, f11⟩ := dropOld_inv hC hR ht hu
  rw [f1, R.bind_ok]
  refine ⟨_, rfl, quitSt_core (t := { t with cond := none }) f2 f4 (by rw [f5]; exact hu) rfl, ?_⟩
  refine quitSt_rest (t := { t with cond := none }) f3 f2.toIds f4 (by rw [f5]; exact hu) (Or.inr ?_)
  simpa [St.pending, f11] using hp

theorem exitAll_inv {s : St} (hC : Core s) (hR : Rest s {}) {t : Th} (ht : t ∈ s.ths) (hu : s.cur = some t.uid) : Good (do
      let s ← s.dropOld t
      let s := { s with ths := s.ths.filter fun x => x.uid ≠ t.uid, cur := none }
      s.dropAll (s.ths.filter fun x => x.pid = t.pid)) := by
  obtain ⟨s1, f1, f2, f3, f4, f5, f6, f7, f8, f9, f10, f11⟩ := dropOld_inv hC hR ht hu
  rw [f1, R.bind_ok]
  have hR1 : Rest s1 { pid := fun x => x = t.pid, thr := fun x => x = t.pid } :=
    f3.mono (by simp) (by simp) (by simp) (by simp) (by simp)
  have hCq := quitSt_core f2 f4 (by rw [f5]; exact hu) rfl
  have hRq := quitSt_rest hR1 f2.toIds f4 (by rw [f5]; exact hu) (Or.inl rfl)
  obtain ⟨s', g1, g2, g3, g4, g5, g6, g7, g8, g9⟩ := dropAll_inv t.pid ((quitSt s1 t.uid).ths.filter fun x => x.pid = t.pid)
    (quitSt s1 t.uid) hCq hRq (by
      intro a ha
      simp only [List.mem_filter, decide_eq_true_eq] at ha
      exact ⟨ha.1, ha.2, by simp⟩) (nd_filter hCq.toNd _)
  refine ⟨s', g1, g2, (g3.fixPid ?_).mono (by simp) (by simp) (by simp) (by simp) (by simp)⟩
  intro p hp a ha hap
  have hp' : p = t.pid := by simpa using hp
  rw [g4, List.mem_filter, decide_eq_true_eq] at ha
  exact ha.2 ⟨a, List.mem_filter.2 ⟨ha.1, by simp [hap, hp']⟩, rfl⟩

theorem updTh_eq (s : St) (u : Nat) (f : Th → Th) : s.updTh u f = sigSt s (fun t => if t.uid = u then f t else t) s.ppend := rfl

theorem keep_psig {s : St} (h : Rest s {}) {p g : Nat} {t : Th} (hg : (p, g) ∈ s.ppend) (ht : t ∈ s.ths) (hp : t.pid = p)
    (hb : ¬ g ∈ t.blocked) (C : Nat → Prop) : ∃ t' ∈ s.ths, t'.pid = p ∧ ¬ g ∈ t'.blocked ∧
      (s.cur = some t'.uid ∨ ∀ c, t'.cond = some c → (s.conds c).sched = true ∨ (s.conds c).held = true ∨ C c) := by
  obtain ⟨a, a1, a2, a3, a4⟩ := h.psig p g t (by simp) hg ht hp hb
  refine ⟨a, a1, a2, a3, a4.imp id ?_⟩
  intro h5 c hc
  rcases h5 c hc with h6 | h6 | h6
  · exact Or.inl h6
  · exact Or.inr (Or.inl h6)
  · exact absurd h6 (by simp)

theorem mask_inv {s : St} (hC : Core s) (hR : Rest s {}) {t : Th} (ht : t ∈ s.ths) (hu : s.cur = some t.uid)
    (hp : s.pending t = false) (l : List Nat) : Good (.ok (s.updTh t.uid fun x => { x with blocked := l })) := by
  have hf : SigOnly (fun x => if x.uid = t.uid then { x with blocked := l } else x) := by
    intro x
    by_cases e : x.uid = t.uid <;> simp [e]
  refine ⟨_, rfl, sigSt_core hC hf s.ppend, ?_⟩
  rw [updTh_eq]
  refine sigSt_rest (C := fun _ => False) hR hf ?_ ?_
  · intro a ha c g hc hcu hg hb
    have hne : a.uid ≠ t.uid := by
      intro e
      exact hcu (by rw [hu, e])
    simp only [if_neg hne] at hg hb
    exact Or.inl ⟨hg, hb⟩
  · intro p g a hg ha hap hb
    by_cases he : a.uid = t.uid
    · exact ⟨a, ha, hap, hb, Or.inl (by rw [hu, he])⟩
    · simp only [if_neg he] at hb
      obtain ⟨b, b1, b2, b3, b4⟩ := keep_psig hR hg ha hap hb (fun _ => False)
      have hbe : b.uid ≠ t.uid := by
        intro e
        have := hC.uniq b t b1 ht e
        subst this
        simp [St.pending] at hp
        exact b3 (hp.2 p g hg b2.symm)
      exact ⟨b, b1, b2, by simpa only [if_neg hbe] using b3, b4⟩

theorem take_inv {s : St} (hC : Core s) (hR : Rest s {}) {t : Th} (g : Nat) : Good (.ok
      { (s.updTh t.uid fun x => { x with pend := x.pend.filter (· ≠ g) }) with ppend := s.ppend.filter (· ≠ (t.pid, g)) }) := by
  have hf : SigOnly (fun x => if x.uid = t.uid then { x with pend := x.pend.filter (· ≠ g) } else x) := by
    intro x
    by_cases e : x.uid = t.uid <;> simp [e]
  have hbl : ∀ x : Th, (if x.uid = t.uid then { x with pend := x.pend.filter (· ≠ g) } else x).blocked = x.blocked := by
    intro x
    split <;> rfl
  refine ⟨_, rfl, sigSt_core hC hf (s.ppend.filter (· ≠ (t.pid, g))), ?_⟩
  refine sigSt_rest (C := fun _ => False) (pp := s.ppend.filter (· ≠ (t.pid, g))) hR hf ?_ ?_
  · intro a ha c g' hc hcu hg hb
    rw [hbl] at hb
    left
    refine ⟨?_, hb⟩
    split at hg
    · exact (List.mem_filter.1 hg).1
    · exact hg
  · intro p g' a hg ha hap hb
    rw [hbl] at hb
    obtain ⟨b, b1, b2, b3, b4⟩ := keep_psig hR (List.mem_filter.1 hg).1 ha hap hb (fun _ => False)
    exact ⟨b, b1, b2, by rw [hbl]; exact b3, b4⟩

theorem wakeupForSignal_inv {s : St} {X : Ex} (hC : Core s) (hR : Rest s X) {t : Th} {c g : Nat} (ht : t ∈ s.ths)
    (hc : t.cond = some c) (hu : s.cur ≠ some t.uid) (hb : ¬ g ∈ t.blocked) :
    ∃ s', s.wakeupForSignal c g = .ok (s', true) ∧ Core s' ∧ Rest s' { X with cnd := fun d => X.cnd d ∧ d ≠ c } := by
  obtain ⟨h1, h2⟩ := owned_refs hC.toCds ht hc
  have hw := hC.wait t c ht hc hu
  obtain ⟨s', e1, e2, e3, _⟩ := sched_inv hC hR hw.2.1
  refine ⟨s', ?_, e2, e3⟩
  have hbc : t.blocked.contains g = false := by simpa using hb
  simp only [St.wakeupForSignal, h1, hw.1, lookupTid_mem hC.toIds ht, hbc, e1, R.bind_ok]
  rfl

theorem signalTh_inv {s : St} (hC : Core s) (hR : Rest s {}) {m : Nat} (hm : s.cur = some m) {t : Th} (ht : t ∈ s.ths) (g : Nat) :
    Good (s.signalTh m t g) := by
  unfold St.signalTh
  split
  · exact ⟨s, rfl, hC, hR⟩
  have hf : SigOnly (fun x => if x.uid = t.uid then { x with pend := g :: x.pend } else x) := by
    intro x
    by_cases e : x.uid = t.uid <;> simp [e]
  have hbl : ∀ x : Th, (if x.uid = t.uid then { x with pend := g :: x.pend } else x).blocked = x.blocked := by
    intro x
    split <;> rfl
  have hC1 := sigSt_core hC hf s.ppend
  have hR1 : ∀ C : Nat → Prop, (m ≠ t.uid → ¬ g ∈ t.blocked → ∀ c, t.cond = some c → C c) →
      Rest (s.updTh t.uid fun x => { x with pend := g :: x.pend }) { cnd := C } := by
    intro C hCc
    refine sigSt_rest hR hf ?_ ?_
    · intro a ha c g' hc hcu hg hb
      rw [hbl] at hb
      by_cases he : a.uid = t.uid
      · have := hC.uniq a t ha ht he
        subst this
        simp only [if_true, List.mem_cons] at hg
        rcases hg with rfl | hg
        · exact Or.inr (hCc (by intro e; exact hcu (by rw [hm, e])) hb c hc)
        · exact Or.inl ⟨hg, hb⟩
      · simp only [if_neg he] at hg
        exact Or.inl ⟨hg, hb⟩
    · intro p g' a hg ha hap hb
      rw [hbl] at hb
      obtain ⟨b, b1, b2, b3, b4⟩ := keep_psig hR hg ha hap hb C
      exact ⟨b, b1, b2, by rw [hbl]; exact b3, b4⟩
  simp only
  split
  · next he => exact ⟨_, rfl, hC1, hR1 (fun _ => False) (fun e => absurd he e)⟩
  next hne =>
  split
  · next he => exact ⟨_, rfl, hC1, hR1 (fun _ => False) (fun _ e => absurd (by simpa using he) e)⟩
  next hnb =>
  have hnb' : ¬ g ∈ t.blocked := by simpa using hnb
  cases hc : t.cond with
  | none => exact ⟨_, rfl, hC1, hR1 (fun _ => False) (by simp [hc])⟩
  | some c =>
    obtain ⟨s', e1, e2, e3⟩ := wakeupForSignal_inv (t := { t with pend := g :: t.pend }) (g := g) hC1
      (hR1 (fun d => d = c) (by intro _ _ d hd; rw [hc] at hd; cases hd; rfl))
      (by simp only [sigSt_ths, List.mem_map]; exact ⟨t, ht, by simp⟩) hc
      (by rw [sigSt_cur, hm]; simpa using hne) hnb'
    refine ⟨s', ?_, e2, e3.mono (by simp) (by simp) (by simp) (by simp) (by simp)⟩
    simp only [updTh_eq, e1, R.bind_ok]
    rfl

theorem interrupt_cases (s : St) (g : Nat) : ∀ L : List Th,
    ((∀ t ∈ L, ¬ g ∈ t.blocked → t.cond = none) ∧ s.interrupt g L = .ok s) ∨
    ∃ t ∈ L, ∃ c, ¬ g ∈ t.blocked ∧ t.cond = some c ∧
      s.interrupt g L = (s.wakeupForSignal c g >>= fun r => .ok r.1)
  | [] => Or.inl ⟨by simp, rfl⟩
  | t :: ts => by
    have ih := interrupt_cases s g ts
    unfold St.interrupt
    by_cases hb : g ∈ t.blocked
    · rw [if_pos (by simpa using hb)]
      rcases ih with ⟨h1, h2⟩ | ⟨a, a1, c, a2⟩
      · refine Or.inl ⟨?_, h2⟩
        intro a ha hab
        rcases List.mem_cons.1 ha with rfl | ha
        · exact absurd hb hab
        · exact h1 a ha hab
      · exact Or.inr ⟨a, List.mem_cons_of_mem _ a1, c, a2⟩
    · rw [if_neg (by simpa using hb)]
      cases hc : t.cond with
      | none =>
        rcases ih with ⟨h1, h2⟩ | ⟨a, a1, c, a2⟩
        · refine Or.inl ⟨?_, h2⟩
          intro a ha hab
          rcases List.mem_cons.1 ha with rfl | ha
          · exact hc
          · exact h1 a ha hab
        · exact Or.inr ⟨a, List.mem_cons_of_mem _ a1, c, a2⟩
      | some c => exact Or.inr ⟨t, List.mem_cons_self .., c, hb, hc, rfl⟩

theorem signalProc_inv {s : St} (hC : Core s) (hR : Rest s {}) (p g : Nat) : Good (s.signalProc s.me p g) := by
  unfold St.signalProc
  split
  · exact ⟨s, rfl, hC, hR⟩
  have hf : SigOnly (fun x => x) := fun x => ⟨rfl, rfl, rfl, rfl⟩
  have he : ({ s with ppend := (p, g) :: s.ppend } : St) = sigSt s (fun x => x) ((p, g) :: s.ppend) := by simp [sigSt]
  have hC1 := sigSt_core hC hf ((p, g) :: s.ppend)
  have hR1 : ∀ C : Nat → Prop, (∀ a ∈ s.ths, a.pid = p → ¬ g ∈ a.blocked → ∃ t' ∈ s.ths, t'.pid = p ∧ ¬ g ∈ t'.blocked ∧
      (s.cur = some t'.uid ∨ ∀ c, t'.cond = some c → (s.conds c).sched = true ∨ (s.conds c).held = true ∨ C c)) →
      Rest (sigSt s (fun x => x) ((p, g) :: s.ppend)) { cnd := C } := by
    intro C hx
    refine sigSt_rest hR hf ?_ ?_
    · intro a ha c g' hc hcu hg hb
      exact Or.inl ⟨hg, hb⟩
    · intro p' g' a hg ha hap hb
      rcases List.mem_cons.1 hg with e | hg
      · cases e
        exact hx a ha hap hb
      · exact keep_psig hR hg ha hap hb C
  have hmain : (∀ t, s.me = some t → t.pid = p → g ∈ t.blocked) →
      Good ((sigSt s (fun x => x) ((p, g) :: s.ppend)).interrupt g (s.ths.filter fun x => x.pid = p)) := by
    intro hme
    rcases interrupt_cases (sigSt s (fun x => x) ((p, g) :: s.ppend)) g (s.ths.filter fun x => x.pid = p) with
      ⟨h1, h2⟩ | ⟨t, t1, c, t2, t3, t4⟩
    · refine ⟨_, h2, hC1, hR1 (fun _ => False) ?_⟩
      intro a ha hap hb
      refine ⟨a, ha, hap, hb, Or.inr ?_⟩
      intro c hc
      rw [h1 a (List.mem_filter.2 ⟨ha, by simp [hap]⟩) hb] at hc
      cases hc
    · obtain ⟨t5, t6⟩ := List.mem_filter.1 t1
      have t7 : t.pid = p := by simpa using t6
      have hcu : s.cur ≠ some t.uid := by
        intro e
        cases hm : s.me with
        | none => rw [me_none hC.toIds hm] at e; cases e
        | some a =>
          obtain ⟨a1, a2⟩ := me_some hm
          rw [a2] at e
          have := hC.uniq a t a1 t5 (by simpa using e)
          subst this
          exact t2 (hme a hm t7)
      obtain ⟨s', e1, e2, e3⟩ := wakeupForSignal_inv (t := t) (g := g) hC1
        (hR1 (fun d => d = c) (by
          intro a ha hap hb
          refine ⟨t, t5, t7, t2, Or.inr ?_⟩
          intro d hd
          rw [t3] at hd
          cases hd
          exact Or.inr (Or.inr rfl)))
        (by simpa using t5) t3 hcu t2
      refine ⟨s', ?_, e2, e3.mono (by simp) (by simp) (by simp) (by simp) (by simp)⟩
      rw [t4, e1]
      rfl
  simp only [he]
  cases hm : s.me with
  | none => exact hmain (by simp [hm])
  | some t =>
    simp only
    split
    · next hb =>
      simp only [Bool.and_eq_true, decide_eq_true_eq, Bool.not_eq_true', List.contains_eq_mem, decide_eq_false_iff_not] at hb
      obtain ⟨h1, h2⟩ := me_some hm
      refine ⟨_, rfl, hC1, hR1 (fun _ => False) ?_⟩
      intro a ha hap hbb
      exact ⟨t, h1, hb.1, hb.2, Or.inl h2⟩
    · next hb =>
      refine hmain ?_
      intro a ha hap
      rw [hm] at ha
      cases ha
      simpa [hap] using hb

theorem setObj_inv {s : St} (hC : Core s) (hR : Rest s {}) (o : Nat) (v : BitVec 16) : Good (s.setObj o v) := by
  unfold St.setObj
  exact tell_inv o (s.objs o) v s (List.range s.nc) (objSt s o v) (objSt_core hC o v) (objSt_rest hR hC.toCds o v) (fun _ => ⟨rfl, rfl⟩)

theorem notify_inv {s : St} (hC : Core s) (hR : Rest s {}) {c : Nat} (hl : (s.conds c).listening = true)
    (hk : (s.conds c).trig = .futex ∨ (s.conds c).trig = .child) : Good (s.notify c) := by
  unfold St.notify
  obtain ⟨s', e1, e2, e3, _⟩ := sched_inv (s := s.upd c fun k => { k with notified := true }) (c := c)
    (upd_core hC (not_freed hC.toCds hl).1 (fun _ => rfl)) (notified_rest hR hk) (by simpa using hl)
  exact ⟨s', e1, e2, e3.mono (by simp) (by simp) (by simp) (by simp) (by simp)⟩

theorem event_eq {s : St} {r : R St} (h : s.event = some r) : ∃ q x k, Pop s q x k ∧
    r = (match k with
      | .wake c => (popSt s q x).trigger c
      | .timer c => (popSt s q x).expire c
      | .start p y => (popSt s q x).startTh p y
      | .exec p y => (popSt s q x).finishExec p y) := by
  unfold St.event at h
  split at h
  · cases h
  · next x k hq =>
    cases h
    exact ⟨_, _, k, pop_of hq, rfl⟩

/-- A step keeps the invariant, or is an `execve` task whose thread is gone while its process is not. -/
theorem step_inv {s : St} (hC : Core s) (hR : Rest s {}) {a : Act} (ha : allowed s a) {r : R St} (h : step s a = some r) :
    Good r ∨ (a = .event ∧ r = .panic ∧ s.odd = true ∧ ∃ q x p y, Pop s q x (.exec p y) ∧
      (∃ t ∈ s.ths, t.pid = p) ∧ ∀ t ∈ s.ths, t.pid = p → t.tid ≠ y) := by
  have hme : ∀ {f : Th → R St}, s.me.map f = some r → (∀ t, s.me = some t → t ∈ s.ths → s.cur = some t.uid → Good (f t)) → Good r := by
    intro f e hf
    obtain ⟨t, h1, rfl⟩ := Option.map_eq_some_iff.1 e
    exact hf t h1 (me_some h1).1 (me_some h1).2
  cases a with
  | event =>
    simp only [step] at h
    split at h
    · next hn =>
      have hn : s.cur = none := by simpa using hn
      obtain ⟨q, x, k, hp, rfl⟩ := event_eq h
      cases k with
      | wake c => exact Or.inl (trigger_inv hC hR hn hp)
      | timer c =>
        obtain ⟨s', e1, e2, e3, _⟩ := expire_inv hC hR hp
        exact Or.inl ⟨s', e1, e2, e3⟩
      | start p y =>
        obtain ⟨s', e1, e2, e3, _⟩ := startTh_inv hC hR hn hp
        exact Or.inl ⟨s', e1, e2, e3⟩
      | exec p y =>
        rcases finishExec_inv hC hR hn hp with ⟨s', e1, e2, e3, _⟩ | ⟨e1, e2, e3, e4⟩
        · exact Or.inl ⟨s', e1, e2, e3⟩
        · exact Or.inr ⟨rfl, e1, e2, q, x, p, y, hp, e3, e4⟩
    · cases h
  | tick d =>
    cases h
    exact Or.inl ⟨_, rfl, tickSt_core hC ha, tickSt_rest hR hC.toCds hC.toQue ha⟩
  | obj o v =>
    cases h
    exact Or.inl (setObj_inv hC hR o v)
  | notify c =>
    cases h
    exact Or.inl (notify_inv hC hR ha.1 ha.2)
  | block trig timeout held =>
    refine Or.inl (hme h ?_)
    intro t ht h1 h2
    obtain ⟨s', e1, e2, e3, _⟩ := block_inv hC hR h1 h2 trig timeout held ha.1 ha.2.1 (fun e => (ha.2.2.1 e).2) (fun e => ha.2.2.2 e t ht)
      (by simp)
    exact ⟨s', e1, e2, e3.mono (by simp) (by simp) (by simp) (by simp) (by simp)⟩
  | exec =>
    refine Or.inl (hme h ?_)
    intro t ht h1 h2
    obtain ⟨s', e1, e2, e3, _⟩ := exec_inv hC hR h1 h2 (ha t ht)
    exact ⟨s', e1, e2, e3⟩
  | exit =>
    refine Or.inl (hme h ?_)
    intro t ht h1 h2
    exact exit_inv hC hR h1 h2 (ha t ht)
  | exitAll =>
    refine Or.inl (hme h ?_)
    intro t ht h1 h2
    exact exitAll_inv hC hR h1 h2
  | clone =>
    refine Or.inl (hme h ?_)
    intro t ht h1 h2
    exact ⟨_, rfl, addTh_core hC t.pid t (Or.inr ⟨t, h1, h2, rfl⟩), addTh_rest hR t.pid t (Or.inr ⟨t, h1, rfl⟩)⟩
  | fork =>
    refine Or.inl (hme h ?_)
    intro t ht h1 h2
    exact ⟨_, rfl, addTh_core hC s.next t (Or.inl rfl), addTh_rest hR s.next t (Or.inl rfl)⟩
  | spawn =>
    simp only [step] at h
    split at h
    · cases h
      exact Or.inl ⟨_, rfl, addTh_core hC s.next _ (Or.inl rfl), addTh_rest hR s.next _ (Or.inl rfl)⟩
    · cases h
  | mask l =>
    refine Or.inl (hme h ?_)
    intro t ht h1 h2
    exact mask_inv hC hR h1 h2 (ha t ht) l
  | take g =>
    refine Or.inl (hme h ?_)
    intro t ht h1 h2
    exact take_inv hC hR g
  | killTh u g =>
    left
    simp only [step, Option.bind_eq_some_iff, Option.map_eq_some_iff] at h
    obtain ⟨m, h1, t, h2, rfl⟩ := h
    exact signalTh_inv hC hR (me_some h1).2 (byUid_some h2).1 g
  | kill p g =>
    cases h
    exact Or.inl (signalProc_inv hC hR p g)

theorem init_core : Core init := by
  constructor
  all_goals constructor
  all_goals simp [init, owned, wakes]

theorem init_rest : Rest init {} := by
  constructor
  all_goals simp [init]

theorem Run.inv {s : St} (h : Run s) : Core s ∧ Rest s {} := by
  induction h with
  | init => exact ⟨init_core, init_rest⟩
  | step _ ha hs ih =>
    rcases step_inv ih.1 ih.2 ha hs with ⟨s', e, h1, h2⟩ | ⟨_, e, _⟩
    · cases e
      exact ⟨h1, h2⟩
    · cases e

end Shadow.Wake
