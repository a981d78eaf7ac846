import Verif.Poll.Model
/-! # The tables of the epoll object and the wait of a call -/
namespace Shadow.Poll

open Shadow.Base

/-- The tables agree with the files, except for the keys of `pend`, whose listeners have not run yet. -/
structure EI (files : Nat → FileSt) (pend : List (Int × Nat)) (ep : Epoll) : Prop where
  nodup : (ep.watching.map Watch.key).Nodup
  sub : ∀ k ∈ ep.ready, ∃ v ∈ ep.watching, v.key = k
  rdy : ∀ v ∈ ep.watching, v.key ∉ pend → (v.key ∈ ep.ready ↔ isReady (files v.obj) v = true)
  opn : ∀ v ∈ ep.watching, v.key ∉ pend → (files v.obj).closed = false

theorem key_inj {l : List Watch} (h : (l.map Watch.key).Nodup) {v w : Watch} (hv : v ∈ l) (hw : w ∈ l) (e : v.key = w.key) :
    v = w := by
  induction l with
  | nil => cases hv
  | cons a l ih =>
    simp only [List.map_cons, List.nodup_cons, List.mem_map, not_exists, not_and] at h
    rcases List.mem_cons.1 hv with hv | hv <;> rcases List.mem_cons.1 hw with hw | hw
    · rw [hv, hw]
    · exact absurd (e.symm.trans (by rw [hv])) (h.1 w hw)
    · exact absurd (e.trans (by rw [hw])) (h.1 v hv)
    · exact ih h.2 hv hw

theorem changed_none {ep : Epoll} {files} {k} (h : ep.watching.find? (·.key == k) = none) :
    ep.changed files k = { ep with bit := !ep.ready.isEmpty } := by
  simp [Epoll.changed, h]

theorem changed_bit (ep : Epoll) (files) (k) : (ep.changed files k).bit = !(ep.changed files k).ready.isEmpty := by
  unfold Epoll.changed
  split <;> rfl

theorem changed_mem {ep : Epoll} {files} {k} {pend} (h : EI files pend ep) (v : Watch) :
    v ∈ (ep.changed files k).watching ↔ v ∈ ep.watching ∧ (v.key = k → (files v.obj).closed = false) := by
  cases e : ep.watching.find? (·.key == k) with
  | none =>
    rw [changed_none e]
    rw [List.find?_eq_none] at e
    constructor
    · intro hv
      exact ⟨hv, fun hk => absurd (by simpa using hk) (e v hv)⟩
    · exact fun hv => hv.1
  | some w =>
    have hw := List.mem_of_find?_eq_some e
    have hk : w.key = k := by simpa using List.find?_some e
    simp only [Epoll.changed, e]
    split
    · rename_i hc
      rw [List.mem_filter]
      constructor
      · rintro ⟨hv, hne⟩
        exact ⟨hv, fun h' => absurd h' (by simpa using hne)⟩
      · rintro ⟨hv, hx⟩
        refine ⟨hv, ?_⟩
        by_cases hvk : v.key = k
        · have := key_inj h.nodup hv hw (hvk.trans hk.symm)
          subst this
          simp [hx hvk] at hc
        · simpa using hvk
    · rename_i hc
      constructor
      · intro hv
        refine ⟨hv, fun hvk => ?_⟩
        have := key_inj h.nodup hv hw (hvk.trans hk.symm)
        subst this
        simpa using hc
      · exact fun hv => hv.1

theorem changed_ready {ep : Epoll} {files} {k} {pend} (h : EI files pend ep) (j : Int × Nat) :
    j ∈ (ep.changed files k).ready ↔
      (j ≠ k ∧ j ∈ ep.ready) ∨ (j = k ∧ ∃ v ∈ ep.watching, v.key = k ∧ isReady (files v.obj) v = true) := by
  cases e : ep.watching.find? (·.key == k) with
  | none =>
    rw [changed_none e]
    rw [List.find?_eq_none] at e
    have hno : ∀ v ∈ ep.watching, v.key ≠ k := fun v hv hk => e v hv (by simpa using hk)
    constructor
    · intro hj
      refine .inl ⟨fun hjk => ?_, hj⟩
      obtain ⟨v, hv, hk⟩ := h.sub j hj
      exact hno v hv (hk.trans hjk)
    · rintro (⟨_, hj⟩ | ⟨_, v, hv, hk, _⟩)
      · exact hj
      · exact absurd hk (hno v hv)
  | some w =>
    have hw := List.mem_of_find?_eq_some e
    have hk : w.key = k := by simpa using List.find?_some e
    have huniq : (∃ v ∈ ep.watching, v.key = k ∧ isReady (files v.obj) v = true) ↔ isReady (files w.obj) w = true := by
      constructor
      · rintro ⟨v, hv, hvk, hr⟩
        have := key_inj h.nodup hv hw (hvk.trans hk.symm)
        subst this
        exact hr
      · exact fun hr => ⟨w, hw, hk, hr⟩
    rw [huniq]
    simp only [Epoll.changed, e]
    by_cases hr : isReady (files w.obj) w = true
    · simp only [hr, if_true]
      by_cases hc : ep.ready.contains k = true
      · rw [if_pos hc]
        have hc' : k ∈ ep.ready := by simpa using hc
        by_cases hj : j = k
        · subst hj; simp [hc']
        · simp [hj]
      · rw [if_neg hc]
        by_cases hj : j = k
        · subst hj; simp
        · simp [hj]
    · simp only [hr]
      by_cases hj : j = k <;> simp [hj]

theorem EI.changed {ep : Epoll} {files} {k} {pend} (h : EI files (k :: pend) ep) : EI files pend (ep.changed files k) where
  nodup := by
    have hs : ((ep.changed files k).watching).Sublist ep.watching := by
      unfold Epoll.changed
      split
      · exact List.Sublist.refl _
      · dsimp only
        split
        · exact List.filter_sublist
        · exact List.Sublist.refl _
    exact (hs.map _).nodup h.nodup
  sub j hj := by
    rw [changed_ready h] at hj
    rcases hj with ⟨hne, hj⟩ | ⟨rfl, v, hv, hk, hr⟩
    · obtain ⟨v, hv, hk⟩ := h.sub j hj
      exact ⟨v, (changed_mem h v).2 ⟨hv, fun e => absurd (hk.symm.trans e) hne⟩, hk⟩
    · refine ⟨v, (changed_mem h v).2 ⟨hv, fun _ => ?_⟩, hk⟩
      simp only [isReady, Bool.and_eq_true, Bool.not_eq_true'] at hr
      exact hr.1.1
  rdy v hv hp := by
    have hv' := (changed_mem h v).1 hv
    rw [changed_ready h]
    by_cases hk : v.key = k
    · constructor
      · rintro (⟨hne, _⟩ | ⟨_, w, hw, hwk, hr⟩)
        · exact absurd hk hne
        · have := key_inj h.nodup hv'.1 hw (hk.trans hwk.symm)
          subst this; exact hr
      · exact fun hr => .inr ⟨hk, v, hv'.1, hk, hr⟩
    · rw [← h.rdy v hv'.1 (by simp [hk, hp])]
      simp [hk]
  opn v hv hp := by
    have hv' := (changed_mem h v).1 hv
    by_cases hk : v.key = k
    · exact hv'.2 hk
    · exact h.opn v hv'.1 (by simp [hk, hp])

/-- The bit tells whether the table of ready watches is empty, unless nothing is watched and it is left over from an
earlier call. -/
def BitOk (ep : Epoll) : Prop := ep.bit = !ep.ready.isEmpty ∨ (ep.watching = [] ∧ ep.ready = [] ∧ ep.bit = true)

theorem EI.reset (ep : Epoll) (files) : EI files [] ep.reset :=
  ⟨by simp [Epoll.reset], by simp [Epoll.reset], by simp [Epoll.reset], by simp [Epoll.reset]⟩

theorem BitOk.reset (ep : Epoll) : BitOk ep.reset := by
  cases h : ep.bit
  · exact .inl (by simp [Epoll.reset, h])
  · exact .inr ⟨rfl, rfl, h⟩

theorem add_spec {ep : Epoll} {files} (w : Watch) (h : EI files [] ep) (hb : BitOk ep) :
    EI files [] (ep.add files w) ∧ BitOk (ep.add files w) ∧
    (∀ v, v ∈ (ep.add files w).watching ↔
      v ∈ ep.watching ∨ (v = w ∧ (files w.obj).closed = false ∧ ∀ u ∈ ep.watching, u.key ≠ w.key)) := by
  unfold Epoll.add
  split
  · rename_i hc
    exact ⟨h, hb, fun v => by simp [hc]⟩
  · rename_i hc
    split
    · rename_i ha
      refine ⟨h, hb, fun v => ?_⟩
      simp only [List.any_eq_true, beq_iff_eq] at ha
      obtain ⟨u, hu, hk⟩ := ha
      constructor
      · exact .inl
      · rintro (hv | ⟨_, _, hx⟩)
        · exact hv
        · exact absurd hk (hx u hu)
    · rename_i ha
      have hno : ∀ u ∈ ep.watching, u.key ≠ w.key := by
        intro u hu hk
        exact ha (List.any_eq_true.2 ⟨u, hu, by simp [hk]⟩)
      have h1 : EI files [w.key] { ep with watching := ep.watching ++ [w] } := by
        refine ⟨?_, ?_, ?_, ?_⟩
        · simp only [List.map_append, List.map_cons, List.map_nil]
          refine List.nodup_append.2 ⟨h.nodup, by simp, ?_⟩
          intro a ha b hb' hab
          obtain ⟨u, hu, rfl⟩ := List.mem_map.1 ha
          simp only [List.mem_singleton] at hb'
          exact hno u hu (hab.trans hb')
        · intro k hk
          obtain ⟨v, hv, e⟩ := h.sub k hk
          exact ⟨v, List.mem_append_left _ hv, e⟩
        · intro v hv hk
          rcases List.mem_append.1 hv with hv | hv
          · exact h.rdy v hv (by simp)
          · simp only [List.mem_singleton] at hv
            subst hv; simp at hk
        · intro v hv hk
          rcases List.mem_append.1 hv with hv | hv
          · exact h.opn v hv (by simp)
          · simp only [List.mem_singleton] at hv
            subst hv; simp at hk
      refine ⟨h1.changed, .inl (changed_bit _ _ _), fun v => ?_⟩
      rw [changed_mem h1]
      simp only [List.mem_append, List.mem_singleton]
      constructor
      · rintro ⟨hv | rfl, hx⟩
        · exact .inl hv
        · exact .inr ⟨rfl, hx rfl, hno⟩
      · rintro (hv | ⟨rfl, hx, _⟩)
        · exact ⟨.inl hv, fun e => absurd e (hno v hv)⟩
        · exact ⟨.inr rfl, fun _ => hx⟩

/-- What the tables hold after the registration. -/
theorem register_spec (s : St) (fds : List Pfd) : ∀ ep, EI s.files [] ep → BitOk ep →
    (∀ p ∈ fds, 0 ≤ p.fd → (s.tbl p.fd.toNat).isSome = true) →
    ∃ ep', register s ep fds = .ok ep' ∧ EI s.files [] ep' ∧ BitOk ep' ∧
      (∀ v ∈ ep.watching, v ∈ ep'.watching) ∧
      (∀ v ∈ ep'.watching, v ∈ ep.watching ∨
        ∃ p ∈ fds, 0 ≤ p.fd ∧ v.fd = p.fd ∧ s.tbl p.fd.toNat = some v.obj ∧
          v.wantIn = has p.events POLLIN ∧ v.wantOut = has p.events POLLOUT) ∧
      (∀ p ∈ fds, 0 ≤ p.fd → (has p.events POLLIN || has p.events POLLOUT) = true → ∀ o, s.tbl p.fd.toNat = some o →
        (s.files o).closed = false → ∃ v ∈ ep'.watching, v.key = (p.fd, o)) := by
  induction fds with
  | nil => exact fun ep h hb _ => ⟨ep, rfl, h, hb, fun v hv => hv, fun v hv => .inl hv, by simp⟩
  | cons p l ih =>
    intro ep h hb ht
    have ht' : ∀ p ∈ l, 0 ≤ p.fd → (s.tbl p.fd.toNat).isSome = true := fun q hq => ht q (List.mem_cons_of_mem _ hq)
    by_cases hp : p.fd < 0
    · obtain ⟨ep', e, h1, h2, h3, h4, h5⟩ := ih ep h hb ht'
      refine ⟨ep', by simp [register, hp, e], h1, h2, h3, ?_, ?_⟩
      · intro v hv
        rcases h4 v hv with hv | ⟨q, hq, hx⟩
        · exact .inl hv
        · exact .inr ⟨q, List.mem_cons_of_mem _ hq, hx⟩
      · intro q hq h0
        rcases List.mem_cons.1 hq with rfl | hq
        · omega
        · exact h5 q hq h0
    · have hp' : 0 ≤ p.fd := by omega
      obtain ⟨o, ho⟩ := Option.isSome_iff_exists.1 (ht p (List.mem_cons_self) hp')
      by_cases hw : (has p.events POLLIN || has p.events POLLOUT) = true
      · obtain ⟨a1, a2, a3⟩ := add_spec ⟨p.fd, o, has p.events POLLIN, has p.events POLLOUT⟩ h hb
        obtain ⟨ep', e, h1, h2, h3, h4, h5⟩ := ih _ a1 a2 ht'
        refine ⟨ep', by simp only [register, hp, if_false, ho]; rw [if_pos hw]; exact e, h1, h2,
          fun v hv => h3 v ((a3 v).2 (.inl hv)), ?_, ?_⟩
        · intro v hv
          rcases h4 v hv with hv | ⟨q, hq, hx⟩
          · rcases (a3 v).1 hv with hv | ⟨rfl, _, _⟩
            · exact .inl hv
            · exact .inr ⟨p, List.mem_cons_self, hp', rfl, ho, rfl, rfl⟩
          · exact .inr ⟨q, List.mem_cons_of_mem _ hq, hx⟩
        · intro q hq h0 hqe o' ho' hc
          rcases List.mem_cons.1 hq with rfl | hq
          · rw [ho] at ho'; cases ho'
            by_cases hex : ∃ u ∈ ep.watching, u.key = (q.fd, o)
            · obtain ⟨u, hu, hk⟩ := hex
              exact ⟨u, h3 u ((a3 u).2 (.inl hu)), hk⟩
            · refine ⟨_, h3 _ ((a3 _).2 (.inr ⟨rfl, hc, fun u hu hk => hex ⟨u, hu, hk⟩⟩)), rfl⟩
          · exact h5 q hq h0 hqe o' ho' hc
      · obtain ⟨ep', e, h1, h2, h3, h4, h5⟩ := ih ep h hb ht'
        refine ⟨ep', by simp only [register, hp, if_false, ho]; rw [if_neg hw]; exact e, h1, h2, h3, ?_, ?_⟩
        · intro v hv
          rcases h4 v hv with hv | ⟨q, hq, hx⟩
          · exact .inl hv
          · exact .inr ⟨q, List.mem_cons_of_mem _ hq, hx⟩
        · intro q hq h0 hqe
          rcases List.mem_cons.1 hq with rfl | hq
          · exact absurd hqe hw
          · exact h5 q hq h0 hqe

/-- The state after the listeners of a file have run. -/
theorem tell_spec (ks : List (Int × Nat)) : ∀ s : St, EI s.files ks s.ep →
    ∃ b ep', s.tell ks = { s with ep := ep', wait := s.wait.map fun w => { w with sched := w.sched || b } } ∧
      EI s.files [] ep' ∧
      (∀ v, v ∈ ep'.watching ↔ v ∈ s.ep.watching ∧ (v.key ∈ ks → (s.files v.obj).closed = false)) ∧
      (ks = [] → ep' = s.ep ∧ b = false) ∧
      (ks ≠ [] → ep'.bit = !ep'.ready.isEmpty) ∧
      (ep'.bit = true → s.ep.bit = true ∨ b = true) := by
  induction ks with
  | nil =>
    intro s h
    refine ⟨false, s.ep, ?_, h, by simp, by simp, by simp, .inl⟩
    simp [St.tell]
  | cons k ks ih =>
    intro s h
    have hc := h.changed
    have hstep : ∃ b0, s.setEp (s.ep.changed s.files k) =
        { s with ep := s.ep.changed s.files k, wait := s.wait.map fun w => { w with sched := w.sched || b0 } } ∧
        ((s.ep.changed s.files k).bit = true → s.ep.bit = true ∨ b0 = true) := by
      unfold St.setEp
      split
      · exact ⟨true, by simp [St.sched], fun _ => .inr rfl⟩
      · rename_i hx
        refine ⟨false, by simp, fun hb => .inl ?_⟩
        simp only [hb, Bool.and_true, Bool.not_eq_true', Bool.not_eq_false] at hx
        exact hx
    obtain ⟨b0, e0, hb0⟩ := hstep
    obtain ⟨b, ep', e, h1, h2, h3, h4, h5⟩ := ih (s.setEp (s.ep.changed s.files k)) (by rw [e0]; exact hc)
    rw [e0] at e h1 h2 h3 h5
    refine ⟨b0 || b, ep', ?_, h1, ?_, by simp, ?_, ?_⟩
    · show (s.setEp (s.ep.changed s.files k)).tell ks = _
      rw [e0, e]
      simp [Option.map_map, Function.comp_def, Bool.or_assoc]
    · intro v
      rw [h2 v, changed_mem h]
      simp only [List.mem_cons]
      constructor
      · rintro ⟨⟨hv, ha⟩, hb⟩
        exact ⟨hv, fun hk => hk.elim ha hb⟩
      · rintro ⟨hv, ha⟩
        exact ⟨⟨hv, fun hk => ha (.inl hk)⟩, fun hk => ha (.inr hk)⟩
    · intro _
      by_cases hks : ks = []
      · rw [(h3 hks).1]
        exact changed_bit _ _ _
      · exact h4 hks
    · intro hb
      rcases h5 hb with hb' | hb'
      · rcases hb0 hb' with h' | h'
        · exact .inl h'
        · exact .inr (by simp [h'])
      · exact .inr (by simp [hb'])

end Shadow.Poll
